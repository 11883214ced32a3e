import Verif.Lemmas.SpinMerge
/-!
# The stages of the calculation of an amplitude
-/
namespace Rpwa.SpinTensor
open Fraction CgBox Spec

/-! ### lists -/

theorem forall₂_map {α β : Type} [DecidableEq α] (b0 : β) {R : α → β → Prop} {l : List α} {ts : List β} (h : List.Forall₂ R l ts) (hn : l.Nodup) :
    ∃ f : α → β, ts = l.map f ∧ ∀ m ∈ l, R m (f m) := by
  induction h with
  | nil => exact ⟨fun _ => b0, rfl, by simp⟩
  | @cons a b l ts hx ht ih =>
    rw [List.nodup_cons] at hn
    obtain ⟨f, h1, h2⟩ := ih hn.2
    have hne : ∀ m ∈ l, Function.update f a b m = f m := fun m hm =>
      Function.update_of_ne (by rintro rfl; exact hn.1 hm) _ _
    refine ⟨Function.update f a b, ?_, ?_⟩
    · rw [List.map_cons, Function.update_self, h1, List.map_congr_left hne]
    · intro m hm
      rcases List.mem_cons.mp hm with rfl | hm
      · rw [Function.update_self]; exact hx
      · rw [hne m hm]; exact h2 m hm

theorem wave_map {F : List ℤ → ℚ} {n : ℕ} {ts : List (List ℤ × ℤ × Frac)} (h : IsWave F n ts) :
    ∃ c : List ℤ → Frac, ts = (hels n).map (fun m => (m, m.sum, c m)) ∧ ∀ m ∈ hels n, Ok (c m) (F m) := by
  obtain ⟨f, h1, h2⟩ := forall₂_map ([], 0, zero) h (hels_nodup n)
  refine ⟨fun m => (f m).2.2, ?_, fun m hm => (h2 m hm).2.2⟩
  rw [h1]
  refine List.map_congr_left fun m hm => ?_
  obtain ⟨e1, e2, -⟩ := h2 m hm
  exact Prod.ext e1 (Prod.ext e2 rfl)

theorem forall₂_prod {α β γ δ : Type} {R : α → β → Prop} {R' : γ → δ → Prop} {I : List α} {ts : List β} {C : List γ} {Ls : List δ}
    (h : List.Forall₂ R I ts) (h' : List.Forall₂ R' C Ls) :
    List.Forall₂ (fun (a : α × γ) (b : β × δ) => R a.1 b.1 ∧ R' a.2 b.2) (I.flatMap fun i => C.map fun c => (i, c))
      (ts.flatMap fun t => Ls.map fun l => (t, l)) := by
  induction h with
  | nil => exact .nil
  | cons hx ht ih =>
    rw [List.flatMap_cons, List.flatMap_cons]
    refine List.rel_append ?_ ih
    rw [List.forall₂_map_left_iff, List.forall₂_map_right_iff]
    exact forall₂_mono h' fun a _ b hab => ⟨hx, hab⟩

theorem forall₂_filter {α β : Type} {R : α → β → Prop} {P : α → Bool} {Q : β → Bool} {I : List α} {ts : List β} (h : List.Forall₂ R I ts)
    (hi : ∀ a b, R a b → P a = Q b) : List.Forall₂ R (I.filter P) (ts.filter Q) := by
  induction h with
  | nil => exact .nil
  | cons hx ht ih =>
    rw [List.filter_cons, List.filter_cons, hi _ _ hx]
    split
    · exact .cons hx ih
    · exact ih

theorem sum_flatMap {α β M : Type} [AddCommMonoid M] (l : List α) (f : α → List β) (g : β → M) :
    ((l.flatMap f).map g).sum = (l.map fun x => ((f x).map g).sum).sum := by
  induction l with
  | nil => rfl
  | cons a l ih => rw [List.flatMap_cons, List.map_append, List.sum_append, ih, List.map_cons, List.sum_cons]

theorem sum_filter {α M : Type} [AddCommMonoid M] (l : List α) (P : α → Bool) (g : α → M) :
    ((l.filter P).map g).sum = (l.map fun x => if P x = true then g x else 0).sum := by
  induction l with
  | nil => rfl
  | cons a l ih =>
    rw [List.filter_cons, List.map_cons, List.sum_cons, ← ih]
    split
    · rw [List.map_cons, List.sum_cons]
    · rw [zero_add]

theorem sum_filterMap {α β M : Type} [AddCommMonoid M] (l : List α) (P : α → Prop) [DecidablePred P] (k : α → β) (g : β → M) :
    ((l.filterMap fun x => if P x then some (k x) else none).map g).sum = (l.map fun x => if P x then g (k x) else 0).sum := by
  induction l with
  | nil => rfl
  | cons a l ih =>
    rw [List.filterMap_cons, List.map_cons, List.sum_cons, ← ih]
    by_cases h : P a
    · rw [if_pos h, if_pos h]; dsimp only; rw [List.map_cons, List.sum_cons]
    · rw [if_neg h, if_neg h]; dsimp only; rw [zero_add]

theorem sum_reverse {α M : Type} [AddCommMonoid M] (l : List α) (g : α → M) : (l.reverse.map g).sum = (l.map g).sum := by
  rw [List.map_reverse, List.sum_reverse]

theorem sum_zero {α M : Type} [AddCommMonoid M] (l : List α) (g : α → M) (h : ∀ x ∈ l, g x = 0) : (l.map g).sum = 0 := by
  induction l with
  | nil => rfl
  | cons a l ih => rw [List.map_cons, List.sum_cons, h a (by simp), ih fun x hx => h x (by simp [hx]), add_zero]

theorem sum_swap {α β M : Type} [AddCommMonoid M] (l : List α) (l' : List β) (g : α → β → M) :
    (l.map fun a => (l'.map fun b => g a b).sum).sum = (l'.map fun b => (l.map fun a => g a b).sum).sum := by
  induction l with
  | nil => simp [sum_zero]
  | cons a l ih =>
    rw [List.map_cons, List.sum_cons, ih, ← List.sum_map_add]
    simp

theorem sum_single {M : Type} [AddCommMonoid M] (l : List ℤ) (hn : l.Nodup) (s : ℤ) (hs : s ∈ l) (g : ℤ → M) :
    (l.map fun b => if s = b then g b else 0).sum = g s := by
  induction l with
  | nil => simp at hs
  | cons a l ih =>
    rw [List.map_cons, List.sum_cons]
    rw [List.nodup_cons] at hn
    by_cases h : s = a
    · subst h
      rw [if_pos rfl, sum_zero, add_zero]
      intro x hx
      rw [if_neg]; rintro rfl; exact hn.1 hx
    · rw [if_neg h, zero_add, ih hn.2 (by rcases List.mem_cons.mp hs with h' | h'; exacts [absurd h' h, h'])]

/-! ### coupled spins -/

theorem mem_loopFrom {hi : ℕ} {lo x : ℤ} : x ∈ coupledSum.loopFrom hi lo ↔ lo ≤ x ∧ x ≤ hi := by
  unfold coupledSum.loopFrom
  simp only [List.mem_map, List.mem_range]
  constructor
  · rintro ⟨k, hk, rfl⟩; omega
  · rintro ⟨h1, h2⟩; exact ⟨(hi - x).toNat, by omega, by omega⟩

theorem loopFrom_nodup (hi : ℕ) (lo : ℤ) : (coupledSum.loopFrom hi lo).Nodup := by
  unfold coupledSum.loopFrom
  refine List.Nodup.map (fun a b h => ?_) List.nodup_range
  have h' : (hi : ℤ) - a = hi - b := h
  omega

/-- the pairs of helicity sequences in the order of the loops -/
noncomputable def pairIdx (S1 S2 : ℕ) (δ : ℤ) : List (List ℤ × List ℤ) :=
  (coupledSum.loopFrom S1 (-(S1 : ℤ))).flatMap fun MM1 => (hels S1).reverse.flatMap fun o =>
    if o.sum = MM1 then
      (coupledSum.loopFrom S2 (-(S1 : ℤ))).flatMap fun MM2 => (hels S2).reverse.filterMap fun e =>
        if e.sum = MM2 ∧ MM1 + MM2 = δ then some (o, e) else none
    else []

theorem mem_pairIdx {S1 S2 : ℕ} {δ : ℤ} {x : List ℤ × List ℤ} (h : x ∈ pairIdx S1 S2 δ) :
    x.1 ∈ hels S1 ∧ x.2 ∈ hels S2 ∧ x.1.sum + x.2.sum = δ := by
  unfold pairIdx at h
  simp only [List.mem_flatMap, List.mem_reverse] at h
  obtain ⟨MM1, -, o, ho, h⟩ := h
  by_cases hs : o.sum = MM1
  · rw [if_pos hs] at h
    simp only [List.mem_flatMap, List.mem_filterMap, List.mem_reverse] at h
    obtain ⟨MM2, -, e, he, h⟩ := h
    by_cases hc : e.sum = MM2 ∧ MM1 + MM2 = δ
    · rw [if_pos hc] at h
      have := Option.some.inj h
      subst this
      exact ⟨ho, he, by rw [hs, hc.1, hc.2]⟩
    · rw [if_neg hc] at h; exact absurd h (by simp)
  · rw [if_neg hs] at h; simp at h

theorem sum_pairIdx {M : Type} [AddCommMonoid M] (S1 S2 : ℕ) (δ : ℤ) (hδ : 0 ≤ δ) (g : List ℤ × List ℤ → M) :
    ((pairIdx S1 S2 δ).map g).sum = ((hels S1).map fun o => ((hels S2).map fun e => if o.sum + e.sum = δ then g (o, e) else 0).sum).sum := by
  unfold pairIdx
  rw [sum_flatMap]
  have h1 : ∀ MM1 : ℤ, (((hels S1).reverse.flatMap fun o =>
      if o.sum = MM1 then
        (coupledSum.loopFrom S2 (-(S1 : ℤ))).flatMap fun MM2 => (hels S2).reverse.filterMap fun e =>
          if e.sum = MM2 ∧ MM1 + MM2 = δ then some (o, e) else none
      else []).map g).sum = ((hels S1).map fun o => if o.sum = MM1 then
        ((coupledSum.loopFrom S2 (-(S1 : ℤ))).map fun MM2 => ((hels S2).map fun e => if e.sum = MM2 ∧ MM1 + MM2 = δ then g (o, e) else 0).sum).sum else 0).sum := by
    intro MM1
    rw [sum_flatMap, sum_reverse]
    congr 1
    refine List.map_congr_left fun o _ => ?_
    by_cases hs : o.sum = MM1
    · rw [if_pos hs, if_pos hs, sum_flatMap]
      congr 1
      refine List.map_congr_left fun MM2 _ => ?_
      rw [sum_filterMap _ (fun e : List ℤ => e.sum = MM2 ∧ MM1 + MM2 = δ) (fun e => (o, e)), sum_reverse]
    · rw [if_neg hs, if_neg hs]; rfl
  simp only [h1]
  rw [sum_swap]
  congr 1
  refine List.map_congr_left fun o ho => ?_
  have hbo := sum_bound ho
  rw [sum_single (coupledSum.loopFrom S1 (-(S1 : ℤ))) (loopFrom_nodup _ _) o.sum (mem_loopFrom.mpr hbo) (fun MM1 =>
    ((coupledSum.loopFrom S2 (-(S1 : ℤ))).map fun MM2 => ((hels S2).map fun e => if e.sum = MM2 ∧ MM1 + MM2 = δ then g (o, e) else 0).sum).sum)]
  rw [sum_swap]
  congr 1
  refine List.map_congr_left fun e he => ?_
  have hbe := sum_bound he
  by_cases hd : o.sum + e.sum = δ
  · rw [if_pos hd]
    have := sum_single (coupledSum.loopFrom S2 (-(S1 : ℤ))) (loopFrom_nodup _ _) e.sum (mem_loopFrom.mpr ⟨by omega, hbe.2⟩) (fun _ => g (o, e))
    refine Eq.trans ?_ this
    congr 1
    refine List.map_congr_left fun b _ => ?_
    by_cases hb : e.sum = b
    · rw [if_pos hb, if_pos ⟨hb, by omega⟩]
    · rw [if_neg hb, if_neg (fun h => hb h.1)]
  · rw [if_neg hd]
    refine sum_zero _ _ fun b _ => ?_
    rw [if_neg (fun h => hd (by rw [h.1]; exact h.2))]

/-- square of the coefficient of a pair, with sign -/
def q1 (S1 S2 : ℕ) (S : ℤ) (o e : List ℤ) : ℚ :=
  waveSq S1 o * (Cv (2 * S1) (2 * S2) (S1 + S2 - S).toNat (S1 + o.sum).toNat (S2 + e.sum).toNat * waveSq S2 e)

theorem cg_rd {S1 S2 : ℕ} {S : ℤ} (h : CgBox.Spec.Triangle S S1 S2) : ∃ t, clebschGordan (2 * S) (2 * (S1 : ℤ)) (2 * (S2 : ℤ)) = .ok t ∧
    ∀ m1 m2 : ℤ, -(S1 : ℤ) ≤ m1 ∧ m1 ≤ S1 → -(S2 : ℤ) ≤ m2 ∧ m2 ≤ S2 → ∃ f, rd t (cgIndex S1 m1 S2 m2) = .ok f ∧
      Ok f (Cv (2 * S1) (2 * S2) (S1 + S2 - S).toNat (S1 + m1).toNat (S2 + m2).toNat) := by
  obtain ⟨ha, hb, hc⟩ := h
  obtain ⟨t, h1, h2⟩ := clebschGordan_ok (n1 := 2 * S1) (n2 := 2 * S2) (a := (S1 + S2 - S).toNat) (by omega) (by omega)
  refine ⟨t, ?_, fun m1 m2 hm1 hm2 => ?_⟩
  · rw [← h1]; congr 1 <;> push_cast <;> omega
  · have hi : cgIndex S1 m1 S2 m2 = (ix (2 * S2) (S1 + m1).toNat (S2 + m2).toNat : ℕ) := by
      unfold cgIndex ix
      push_cast
      rw [Int.toNat_of_nonneg (by omega), Int.toNat_of_nonneg (by omega)]
      ring
    have hlt := ix_lt (n1 := 2 * S1) (n2 := 2 * S2) (p := (S1 + m1).toNat) (q := (S2 + m2).toNat) (by omega) (by omega)
    rw [← h2.len] at hlt
    have hv := h2.val _ _ (List.getElem?_eq_getElem hlt)
    rw [ix_div (by omega), ix_mod (by omega)] at hv
    refine ⟨_, ?_, hv⟩
    unfold rd
    rw [hi, if_neg (by omega), Int.toNat_natCast, List.getElem?_eq_getElem hlt]

/-- a term of the coupled spins -/
def R1 (S1 S2 : ℕ) (S : ℤ) (x : List ℤ × List ℤ) (t : Term) : Prop :=
  t.ome = x.1 ∧ t.eps = x.2 ∧ t.chi = [] ∧ t.phi = [] ∧ t.gamS = 0 ∧ t.gamSig = 0 ∧ Ok t.pre (q1 S1 S2 S x.1 x.2)

theorem coupled_ok {S1 S2 : ℕ} {S δ : ℤ} (h : CgBox.Spec.Triangle S S1 S2) {ts1 ts2 : List (List ℤ × ℤ × Frac)}
    (h1 : IsWave (waveSq S1) S1 ts1) (h2 : IsWave (waveSq S2) S2 ts2) :
    ∃ ts, coupledSum ⟨S1, 's', ts1⟩ ⟨S2, 's', ts2⟩ δ S = .ok ts ∧ List.Forall₂ (R1 S1 S2 S) (pairIdx S1 S2 δ) ts := by
  obtain ⟨c1, rfl, o1⟩ := wave_map h1
  obtain ⟨c2, rfl, o2⟩ := wave_map h2
  obtain ⟨t, g1, g2⟩ := cg_rd h
  have n1 : ∀ m ∈ hels S1, ¬ equal (c1 m) zero = true := fun m hm => by
    rw [equal_zero (o1 m hm)]; exact (waveSq_pos S1 m).ne'
  have n2 : ∀ m ∈ hels S2, ¬ equal (c2 m) zero = true := fun m hm => by
    rw [equal_zero (o2 m hm)]; exact (waveSq_pos S2 m).ne'
  unfold coupledSum
  obtain ⟨ha, hb, hc⟩ := h
  dsimp only
  rw [if_neg (by simp), if_neg (by
    have : |2 * (S1 : ℤ) - 2 * (S2 : ℤ)| ≤ 2 * S := by rw [abs_le]; omega
    omega), g1, Outcome.ok_bind]
  have hp : ((coupledSum.loopFrom S1 (-(S1 : ℤ))).flatMap fun MM1 => ((hels S1).map (fun m => (m, m.sum, c1 m))).reverse.flatMap fun x1 =>
      if x1.2.1 = MM1 ∧ ¬ equal x1.2.2 zero = true then
        (coupledSum.loopFrom S2 (-(S1 : ℤ))).flatMap fun MM2 => ((hels S2).map (fun m => (m, m.sum, c2 m))).reverse.filterMap fun x2 =>
          if (x2.2.1 = MM2 ∧ ¬ equal x2.2.2 zero = true) ∧ MM1 + MM2 = δ then some (x1, x2, MM1, MM2) else none
      else []) = (pairIdx S1 S2 δ).map fun x => ((x.1, x.1.sum, c1 x.1), (x.2, x.2.sum, c2 x.2), x.1.sum, x.2.sum) := by
    unfold pairIdx
    rw [List.map_flatMap]
    refine List.flatMap_congr fun MM1 _ => ?_
    rw [show ((hels S1).map (fun m => (m, m.sum, c1 m))).reverse = (hels S1).reverse.map (fun m => (m, m.sum, c1 m)) from List.map_reverse.symm,
      List.flatMap_map, List.map_flatMap]
    refine List.flatMap_congr fun o ho => ?_
    rw [List.mem_reverse] at ho
    by_cases hs : o.sum = MM1
    · rw [if_pos ⟨hs, n1 o ho⟩, if_pos hs, List.map_flatMap]
      refine List.flatMap_congr fun MM2 _ => ?_
      rw [show ((hels S2).map (fun m => (m, m.sum, c2 m))).reverse = (hels S2).reverse.map (fun m => (m, m.sum, c2 m)) from List.map_reverse.symm,
        List.filterMap_map, List.map_filterMap]
      refine List.filterMap_congr fun e he => ?_
      rw [List.mem_reverse] at he
      simp only [Function.comp]
      by_cases hd : e.sum = MM2 ∧ MM1 + MM2 = δ
      · rw [if_pos ⟨⟨hd.1, n2 e he⟩, hd.2⟩, if_pos hd]
        simp [hs, hd.1]
      · rw [if_neg (fun h => hd ⟨h.1.1, h.2⟩), if_neg hd]; rfl
    · rw [if_neg (fun h => hs h.1), if_neg hs]; rfl
  refine (mapM_forall₂ (l := pairIdx S1 S2 δ) (R := fun x y => y = ((x.1, x.1.sum, c1 x.1), (x.2, x.2.sum, c2 x.2), x.1.sum, x.2.sum))
    (R' := R1 S1 S2 S) (a := _) ?_ ?_)
  · have : List.Forall₂ (fun x y => y = ((x.1, x.1.sum, c1 x.1), (x.2, x.2.sum, c2 x.2), x.1.sum, x.2.sum)) (pairIdx S1 S2 δ)
        ((pairIdx S1 S2 δ).map fun x => ((x.1, x.1.sum, c1 x.1), (x.2, x.2.sum, c2 x.2), x.1.sum, x.2.sum)) := by
      rw [List.forall₂_map_right_iff, List.forall₂_same]; intro x _; rfl
    rw [← hp] at this
    exact this
  · intro x hx y hy
    subst hy
    obtain ⟨m1, m2, -⟩ := mem_pairIdx hx
    obtain ⟨f, f1, f2⟩ := g2 x.1.sum x.2.sum (sum_bound m1) (sum_bound m2)
    dsimp only
    rw [f1, Outcome.ok_bind]
    exact ⟨⟨x.1, x.2, [], [], 0, 0, mul (c1 x.1) (mul f (c2 x.2))⟩, by simp [multiply, mkTerm], rfl, rfl, rfl, rfl, rfl, rfl,
      mul_ok (o1 _ m1) (mul_ok f2 (o2 _ m2))⟩

/-! ### contractions -/

/-- numbers of contractions -/
structure Nums where
  i : ℕ
  co : ℕ
  ce : ℕ
  po : ℕ
  pe : ℕ
  cp : ℕ

namespace Nums
variable (N : Nums)

/-- sequences left after the contractions of one kind, last index first -/
def x1 (o : List ℤ) : List ℤ := o.reverse.drop N.i
def y1 (e : List ℤ) : List ℤ := e.reverse.drop N.i
def x2 (o : List ℤ) : List ℤ := (N.x1 o).drop N.co
def y2 (e : List ℤ) : List ℤ := (N.y1 e).drop N.ce
def x3 (o : List ℤ) : List ℤ := (N.x2 o).drop N.po
def y3 (e : List ℤ) : List ℤ := (N.y2 e).drop N.pe
def u1 (c : List ℤ) : List ℤ := c.reverse.drop (N.co + N.ce)
def u2 (c : List ℤ) : List ℤ := (N.u1 c).drop N.cp
def w1 (p : List ℤ) : List ℤ := p.reverse.drop (N.po + N.pe)
def w2 (p : List ℤ) : List ℤ := (N.w1 p).drop N.cp

/-- signs and exponents -/
def s2 (o e : List ℤ) : ℤ := pins (o.reverse.take N.i) (e.reverse.take N.i)
def a2 (o e : List ℤ) : ℕ := cnt (o.reverse.take N.i) (e.reverse.take N.i)
def s3 (o e c : List ℤ) : ℤ :=
  pks false (c.reverse.take N.co) ((N.x1 o).take N.co) * pks false ((c.reverse.drop N.co).take N.ce) ((N.y1 e).take N.ce)
def a3 (o c : List ℤ) : ℕ := cnt (c.reverse.take N.co) ((N.x1 o).take N.co)
def b3 (e c : List ℤ) : ℕ := cnt ((c.reverse.drop N.co).take N.ce) ((N.y1 e).take N.ce)
def s4 (o e p : List ℤ) : ℤ :=
  pks true (p.reverse.take N.po) ((N.x2 o).take N.po) * pks true ((p.reverse.drop N.po).take N.pe) ((N.y2 e).take N.pe)
def a4 (o p : List ℤ) : ℕ := cnt (p.reverse.take N.po) ((N.x2 o).take N.po)
def b4 (e p : List ℤ) : ℕ := cnt ((p.reverse.drop N.po).take N.pe) ((N.y2 e).take N.pe)
def lf (o e c p : List ℤ) : ℤ × ℕ × ℕ := left (N.x3 o) (N.y3 e) (N.u2 c) (N.w2 p)
def s5 (o e c p : List ℤ) : ℤ := pks true ((N.u1 c).take N.cp) ((N.w1 p).take N.cp) * (N.lf o e c p).1
def ea (o e c p : List ℤ) : ℕ := N.a2 o e + N.a3 o c + N.a4 o p + (N.lf o e c p).2.1
def eb (o e c p : List ℤ) : ℕ := N.a2 o e + N.b3 e c + N.b4 e p + (N.lf o e c p).2.2

/-- the inner contraction keeps the pair -/
def kept (o e : List ℤ) : Bool := N.i == 0 || lastOk N.i o.reverse e.reverse 0 != 0

def q2 (S1 S2 : ℕ) (S : ℤ) (o e : List ℤ) : ℚ := N.s2 o e * q1 S1 S2 S o e
def q3 (S1 S2 L : ℕ) (S : ℤ) (o e c : List ℤ) : ℚ := N.s3 o e c * (N.q2 S1 S2 S o e * orbSq L c)
def q4 (S1 S2 L J : ℕ) (S : ℤ) (o e c p : List ℤ) : ℚ := N.s4 o e p * (N.q3 S1 S2 L S o e c * waveSq J p)
def q5 (S1 S2 L J : ℕ) (S : ℤ) (o e c p : List ℤ) : ℚ := N.s5 o e c p * N.q4 S1 S2 L J S o e c p

end Nums

def R2 (N : Nums) (S1 S2 : ℕ) (S : ℤ) (x : List ℤ × List ℤ) (t : Term) : Prop :=
  t.ome = (N.x1 x.1).reverse ∧ t.eps = (N.y1 x.2).reverse ∧ t.chi = [] ∧ t.phi = [] ∧ t.gamS = (N.a2 x.1 x.2 : ℕ) ∧ t.gamSig = (N.a2 x.1 x.2 : ℕ) ∧
  Ok t.pre (N.q2 S1 S2 S x.1 x.2)

theorem inner_stage (N : Nums) {S1 S2 : ℕ} {S δ : ℤ} {ts : List Term} (h : List.Forall₂ (R1 S1 S2 S) (pairIdx S1 S2 δ) ts) (hi1 : N.i ≤ S1) (hi2 : N.i ≤ S2) :
    ∃ ts', (if (N.i : ℤ) ≠ 0 then innerSum ts N.i else .ok ts) = .ok ts' ∧
      List.Forall₂ (R2 N S1 S2 S) ((pairIdx S1 S2 δ).filter fun x => N.kept x.1 x.2) ts' := by
  by_cases hz : N.i = 0
  · rw [if_neg (by rw [hz]; simp)]
    refine ⟨ts, rfl, ?_⟩
    have : (pairIdx S1 S2 δ).filter (fun x => N.kept x.1 x.2) = pairIdx S1 S2 δ := by
      rw [List.filter_eq_self]; intro x _; simp [Nums.kept, hz]
    rw [this]
    refine forall₂_mono h fun x _ t ht => ?_
    obtain ⟨h1, h2, h3, h4, h5, h6, h7⟩ := ht
    refine ⟨by simp [Nums.x1, hz, h1], by simp [Nums.y1, hz, h2], h3, h4, by simp [Nums.a2, hz, h5], by simp [Nums.a2, hz, h6], ?_⟩
    simpa [Nums.q2, Nums.s2, hz] using h7
  · rw [if_pos (by exact_mod_cast hz)]
    have key : ∃ r, ts.mapM (fun t => innerTerm t N.i) = .ok r ∧
        List.Forall₂ (fun x (y : Term × ℤ) => R2 N S1 S2 S x y.1 ∧ y.2 = lastOk N.i x.1.reverse x.2.reverse 0) (pairIdx S1 S2 δ) r := by
      refine mapM_forall₂ h fun x hx t ht => ?_
      obtain ⟨h1, h2, h3, h4, h5, h6, h7⟩ := ht
      obtain ⟨m1, m2, -⟩ := mem_pairIdx hx
      rw [mem_hels] at m1 m2
      obtain ⟨t', g1, g2, g3, g4, g5, g6, g7, g8⟩ := inner_ok N.i x.1.reverse x.2.reverse t 0 _ (by simp [m1.1, hi1]) (by simp [m2.1, hi2])
        (fun m hm => m1.2 m (by simpa using hm)) (fun m hm => m2.2 m (by simpa using hm)) (by simp [h1]) (by simp [h2]) h7
      refine ⟨_, by unfold innerTerm; rw [Int.toNat_natCast]; exact g1, ⟨g2, g3, g4.trans h3, g5.trans h4, ?_, ?_, g8⟩, rfl⟩
      · rw [g6, h5, zero_add]; rfl
      · rw [g7, h6, zero_add]; rfl
    obtain ⟨r, k1, k2⟩ := key
    unfold innerSum
    rw [k1, Outcome.ok_bind]
    refine ⟨_, rfl, ?_⟩
    rw [List.forall₂_map_right_iff]
    refine forall₂_mono (forall₂_filter k2 fun x y hxy => ?_) fun _ _ _ h => h.1
    rw [hxy.2]
    rw [Bool.eq_iff_iff]
    simp [Nums.kept, hz]

def R3 (N : Nums) (S1 S2 L : ℕ) (S : ℤ) (x : (List ℤ × List ℤ) × List ℤ) (t : Term) : Prop :=
  Ok t.pre (N.q3 S1 S2 L S x.1.1 x.1.2 x.2) ∧ (N.q3 S1 S2 L S x.1.1 x.1.2 x.2 ≠ 0 →
    t.ome = (N.x2 x.1.1).reverse ∧ t.eps = (N.y2 x.1.2).reverse ∧ t.chi = (N.u1 x.2).reverse ∧ t.phi = [] ∧
    t.gamS = (N.a2 x.1.1 x.1.2 + N.a3 x.1.1 x.2 : ℕ) ∧ t.gamSig = (N.a2 x.1.1 x.1.2 + N.b3 x.1.2 x.2 : ℕ))

/-- the terms of a wave function with given projection -/
theorem tensor_idx {F : List ℤ → ℚ} {n : ℕ} {ts : List (List ℤ × ℤ × Frac)} (h : IsWave F n ts) (δ : ℤ) (hF : ∀ m ∈ hels n, m.sum = δ → F m ≠ 0)
    (type name : Char) : List.Forall₂ (fun m (l : Term) => ∃ f, l = mkTerm name m f ∧ Ok f (F m)) ((hels n).reverse.filter fun m => m.sum = δ)
      (tensorSum ⟨n, type, ts⟩ name δ) := by
  obtain ⟨c, rfl, oc⟩ := wave_map h
  unfold tensorSum
  dsimp only
  have e : ((hels n).map (fun m => (m, m.sum, c m))).reverse.filterMap (fun x => if x.2.1 = δ ∧ ¬ equal x.2.2 zero = true then some (mkTerm name x.1 x.2.2) else none) =
      ((hels n).reverse.filter fun m => m.sum = δ).map fun m => mkTerm name m (c m) := by
    rw [show ((hels n).map (fun m => (m, m.sum, c m))).reverse = (hels n).reverse.map (fun m => (m, m.sum, c m)) from List.map_reverse.symm,
      List.filterMap_map, ← List.filterMap_eq_map, List.filterMap_filter]
    refine List.filterMap_congr fun m hm => ?_
    rw [List.mem_reverse] at hm
    simp only [Function.comp]
    by_cases hd : m.sum = δ
    · have : ¬ equal (c m) zero = true := by rw [equal_zero (oc m hm)]; exact hF m hm hd
      rw [if_pos ⟨hd, this⟩, if_pos (by simpa using hd)]
    · rw [if_neg (fun h => hd h.1), if_neg (by simpa using hd)]
  rw [e, List.forall₂_map_right_iff, List.forall₂_same]
  intro m hm
  exact ⟨c m, rfl, oc m (by simpa using (List.mem_filter.mp hm).1)⟩

/-- index set after the contraction with the orbital angular momentum -/
noncomputable def idx3 (N : Nums) (S1 S2 L : ℕ) (S δ : ℤ) : List ((List ℤ × List ℤ) × List ℤ) :=
  (((pairIdx S1 S2 δ).filter fun x => N.kept x.1 x.2).flatMap fun x => ((hels L).reverse.filter fun m => m.sum = 0).map fun c => (x, c)).filter
    fun x => N.q3 S1 S2 L S x.1.1 x.1.2 x.2 ≠ 0

theorem mem_idx2 {N : Nums} {S1 S2 L : ℕ} {δ : ℤ} {x : (List ℤ × List ℤ) × List ℤ}
    (h : x ∈ ((pairIdx S1 S2 δ).filter fun x => N.kept x.1 x.2).flatMap fun x => ((hels L).reverse.filter fun m => m.sum = 0).map fun c => (x, c)) :
    x.1 ∈ pairIdx S1 S2 δ ∧ x.2 ∈ hels L ∧ x.2.sum = 0 := by
  simp only [List.mem_flatMap, List.mem_map, List.mem_filter, List.mem_reverse, decide_eq_true_eq] at h
  obtain ⟨y, hy, c, hc, rfl⟩ := h
  exact ⟨hy.1, hc.1, hc.2⟩

theorem chi_stage (N : Nums) {S1 S2 L : ℕ} {S δ : ℤ} {ts : List Term} {wl : List (List ℤ × ℤ × Frac)}
    (h : List.Forall₂ (R2 N S1 S2 S) ((pairIdx S1 S2 δ).filter fun x => N.kept x.1 x.2) ts) (hw : IsWave (orbSq L) L wl)
    (hi1 : N.i + N.co ≤ S1) (hi2 : N.i + N.ce ≤ S2) (hl : N.co + N.ce ≤ L) :
    ∃ ts', lsSum ts (tensorSum ⟨L, 'l', wl⟩ 'c' 0) ((N.co + N.ce : ℕ) : ℤ) (N.co : ℕ) 'c' = .ok ts' ∧ List.Forall₂ (R3 N S1 S2 L S) (idx3 N S1 S2 L S δ) ts' := by
  have hT := tensor_idx hw 0 (fun m _ hm => by
    unfold orbSq; rw [if_pos hm]; exact (mul_pos (waveSq_pos L _) (waveSq_pos L _)).ne') 'l' 'c'
  have key : ∃ r, (ts.flatMap fun t => (tensorSum ⟨L, 'l', wl⟩ 'c' 0).map fun l => (t, l)).mapM
      (fun x => lsTerm x.1 x.2 ((N.co + N.ce : ℕ) : ℤ) (N.co : ℕ) 'c') = .ok r ∧ List.Forall₂ (R3 N S1 S2 L S)
        (((pairIdx S1 S2 δ).filter fun x => N.kept x.1 x.2).flatMap fun x => ((hels L).reverse.filter fun m => m.sum = 0).map fun c => (x, c)) r := by
    refine mapM_forall₂ (forall₂_prod h hT) fun x hx t ht => ?_
    obtain ⟨m1, m2, m3⟩ := mem_idx2 hx
    obtain ⟨m4, m5, -⟩ := mem_pairIdx m1
    rw [mem_hels] at m2 m4 m5
    obtain ⟨⟨h1, h2, h3, h4, h5, h6, h7⟩, f, hf, of⟩ := ht
    obtain ⟨t', g1, g2, g3⟩ := ls_chi N.co N.ce x.2.reverse (N.x1 x.1.1) (N.y1 x.1.2) t.1 f _ _ (by simp [m2.1, hl])
      (by simp [Nums.x1, m4.1]; omega) (by simp [Nums.y1, m5.1]; omega) (fun m hm => m2.2 m (by simpa using hm))
      (fun m hm => m4.2 m (by simpa using List.mem_of_mem_drop hm)) (fun m hm => m5.2 m (by simpa using List.mem_of_mem_drop hm)) h1 h2 h3 h4 h7 of _ rfl
    rw [hf]
    rw [List.reverse_reverse] at g1
    refine ⟨t', g1, g2, fun hne => ?_⟩
    have hs : N.s3 x.1.1 x.1.2 x.2 ≠ 0 := by
      intro h0; apply hne; unfold Nums.q3; rw [h0]; simp
    obtain ⟨e1, e2, e3, e4, e5, e6⟩ := g3 hs
    refine ⟨e1, e2, e3, e4, ?_, ?_⟩
    · rw [e5, h5]; push_cast; rfl
    · rw [e6, h6]; push_cast; rfl
  obtain ⟨r, k1, k2⟩ := key
  unfold lsSum
  rw [k1, Outcome.ok_bind]
  refine ⟨_, rfl, ?_⟩
  unfold idx3
  refine forall₂_filter k2 fun x y hxy => ?_
  have := nonzero_iff hxy.1
  by_cases h0 : N.q3 S1 S2 L S x.1.1 x.1.2 x.2 = 0
  · rw [Bool.eq_iff_iff, this]; simp [h0]
  · rw [Bool.eq_iff_iff, this]; simp [h0]

def R4 (N : Nums) (S1 S2 L J : ℕ) (S : ℤ) (x : ((List ℤ × List ℤ) × List ℤ) × List ℤ) (t : Term) : Prop :=
  Ok t.pre (N.q4 S1 S2 L J S x.1.1.1 x.1.1.2 x.1.2 x.2) ∧ (N.q4 S1 S2 L J S x.1.1.1 x.1.1.2 x.1.2 x.2 ≠ 0 →
    t.ome = (N.x3 x.1.1.1).reverse ∧ t.eps = (N.y3 x.1.1.2).reverse ∧ t.chi = (N.u1 x.1.2).reverse ∧ t.phi = (N.w1 x.2).reverse ∧
    t.gamS = (N.a2 x.1.1.1 x.1.1.2 + N.a3 x.1.1.1 x.1.2 + N.a4 x.1.1.1 x.2 : ℕ) ∧
    t.gamSig = (N.a2 x.1.1.1 x.1.1.2 + N.b3 x.1.1.2 x.1.2 + N.b4 x.1.1.2 x.2 : ℕ))

noncomputable def idx4 (N : Nums) (S1 S2 L J : ℕ) (S δ : ℤ) : List (((List ℤ × List ℤ) × List ℤ) × List ℤ) :=
  ((idx3 N S1 S2 L S δ).flatMap fun x => ((hels J).reverse.filter fun m => m.sum = δ).map fun p => (x, p)).filter
    fun x => N.q4 S1 S2 L J S x.1.1.1 x.1.1.2 x.1.2 x.2 ≠ 0

theorem mem_idx3 {N : Nums} {S1 S2 L J : ℕ} {S δ : ℤ} {x : ((List ℤ × List ℤ) × List ℤ) × List ℤ}
    (h : x ∈ (idx3 N S1 S2 L S δ).flatMap fun x => ((hels J).reverse.filter fun m => m.sum = δ).map fun p => (x, p)) :
    x.1.1 ∈ pairIdx S1 S2 δ ∧ x.1.2 ∈ hels L ∧ x.1.2.sum = 0 ∧ N.q3 S1 S2 L S x.1.1.1 x.1.1.2 x.1.2 ≠ 0 ∧ N.kept x.1.1.1 x.1.1.2 = true ∧
      x.2 ∈ hels J ∧ x.2.sum = δ := by
  simp only [List.mem_flatMap, List.mem_map, List.mem_filter, List.mem_reverse, decide_eq_true_eq] at h
  obtain ⟨y, hy, c, hc, rfl⟩ := h
  unfold idx3 at hy
  rw [List.mem_filter] at hy
  obtain ⟨hy, hq⟩ := hy
  have hk : N.kept y.1.1 y.1.2 = true := by
    simp only [List.mem_flatMap, List.mem_map, List.mem_filter, List.mem_reverse, decide_eq_true_eq] at hy
    obtain ⟨z, hz, c, hc, rfl⟩ := hy
    exact hz.2
  obtain ⟨e1, e2, e3⟩ := mem_idx2 hy
  exact ⟨e1, e2, e3, by simpa using hq, hk, hc.1, hc.2⟩

theorem phi_stage (N : Nums) {S1 S2 L J : ℕ} {S δ : ℤ} {ts : List Term} {wj : List (List ℤ × ℤ × Frac)}
    (h : List.Forall₂ (R3 N S1 S2 L S) (idx3 N S1 S2 L S δ) ts) (hw : IsWave (waveSq J) J wj)
    (hi1 : N.i + N.co + N.po ≤ S1) (hi2 : N.i + N.ce + N.pe ≤ S2) (hl : N.po + N.pe ≤ J) :
    ∃ ts', lsSum ts (tensorSum ⟨J, 'c', wj⟩ 'p' δ) ((N.po + N.pe : ℕ) : ℤ) (N.po : ℕ) 'p' = .ok ts' ∧ List.Forall₂ (R4 N S1 S2 L J S) (idx4 N S1 S2 L J S δ) ts' := by
  have hT := tensor_idx hw δ (fun m _ _ => (waveSq_pos J m).ne') 'c' 'p'
  have key : ∃ r, (ts.flatMap fun t => (tensorSum ⟨J, 'c', wj⟩ 'p' δ).map fun l => (t, l)).mapM
      (fun x => lsTerm x.1 x.2 ((N.po + N.pe : ℕ) : ℤ) (N.po : ℕ) 'p') = .ok r ∧ List.Forall₂ (R4 N S1 S2 L J S)
        ((idx3 N S1 S2 L S δ).flatMap fun x => ((hels J).reverse.filter fun m => m.sum = δ).map fun p => (x, p)) r := by
    refine mapM_forall₂ (forall₂_prod h hT) fun x hx t ht => ?_
    obtain ⟨m1, -, -, m6, -, m2, m3⟩ := mem_idx3 hx
    obtain ⟨m4, m5, -⟩ := mem_pairIdx m1
    rw [mem_hels] at m2 m4 m5
    obtain ⟨⟨h7, h8⟩, f, hf, of⟩ := ht
    obtain ⟨h1, h2, h3, h4, h5, h6⟩ := h8 m6
    obtain ⟨t', g1, g2, g3⟩ := ls_phi N.po N.pe x.2.reverse (N.x2 x.1.1.1) (N.y2 x.1.1.2) t.1 f _ _ (by simp [m2.1, hl])
      (by simp [Nums.x2, Nums.x1, m4.1]; omega) (by simp [Nums.y2, Nums.y1, m5.1]; omega) (fun m hm => m2.2 m (by simpa using hm))
      (fun m hm => m4.2 m (by simpa using List.mem_of_mem_drop (List.mem_of_mem_drop hm)))
      (fun m hm => m5.2 m (by simpa using List.mem_of_mem_drop (List.mem_of_mem_drop hm))) h1 h2 h4 h7 of _ rfl
    rw [hf]
    rw [List.reverse_reverse] at g1
    refine ⟨t', g1, g2, fun hne => ?_⟩
    have hs : N.s4 x.1.1.1 x.1.1.2 x.2 ≠ 0 := by
      intro h0; apply hne; unfold Nums.q4; rw [h0]; simp
    obtain ⟨e1, e2, e3, e4, e5, e6⟩ := g3 hs
    refine ⟨e1, e2, e3.trans h3, e4, ?_, ?_⟩
    · rw [e5, h5]; push_cast; rfl
    · rw [e6, h6]; push_cast; rfl
  obtain ⟨r, k1, k2⟩ := key
  unfold lsSum
  rw [k1, Outcome.ok_bind]
  refine ⟨_, rfl, ?_⟩
  unfold idx4
  refine forall₂_filter k2 fun x y hxy => ?_
  have := nonzero_iff hxy.1
  by_cases h0 : N.q4 S1 S2 L J S x.1.1.1 x.1.1.2 x.1.2 x.2 = 0
  · rw [Bool.eq_iff_iff, this]; simp [h0]
  · rw [Bool.eq_iff_iff, this]; simp [h0]

def R5 (N : Nums) (S1 S2 L J : ℕ) (S : ℤ) (x : ((List ℤ × List ℤ) × List ℤ) × List ℤ) (t : Term) : Prop :=
  Ok t.pre (N.q5 S1 S2 L J S x.1.1.1 x.1.1.2 x.1.2 x.2) ∧ (N.q5 S1 S2 L J S x.1.1.1 x.1.1.2 x.1.2 x.2 ≠ 0 →
    Bare t ∧ t.gamS = (N.ea x.1.1.1 x.1.1.2 x.1.2 x.2 : ℕ) ∧ t.gamSig = (N.eb x.1.1.1 x.1.1.2 x.1.2 x.2 : ℕ))

theorem lj_stage (N : Nums) {S1 S2 L J : ℕ} {S δ : ℤ} {even : Bool} {ts : List Term} (h : List.Forall₂ (R4 N S1 S2 L J S) (idx4 N S1 S2 L J S δ) ts)
    (hl : N.co + N.ce + N.cp ≤ L) (hj : N.po + N.pe + N.cp ≤ J)
    (hs : Shape even (S1 - (N.i + N.co + N.po)) (S2 - (N.i + N.ce + N.pe)) (L - (N.co + N.ce + N.cp)) (J - (N.po + N.pe + N.cp))) :
    ∃ ts', ts.mapM (fun t => ljTerm t (N.cp : ℕ) even) = .ok ts' ∧ List.Forall₂ (R5 N S1 S2 L J S) (idx4 N S1 S2 L J S δ) ts' := by
  refine mapM_forall₂ h fun x hx t ht => ?_
  unfold idx4 at hx
  rw [List.mem_filter] at hx
  obtain ⟨hx, hq⟩ := hx
  obtain ⟨m1, m2, -, -, -, m3, -⟩ := mem_idx3 hx
  obtain ⟨m4, m5, -⟩ := mem_pairIdx m1
  rw [mem_hels] at m2 m3 m4 m5
  obtain ⟨h7, h8⟩ := ht
  obtain ⟨h1, h2, h3, h4, h5, h6⟩ := h8 (by simpa using hq)
  obtain ⟨t', g1, g2, g3⟩ := lj_ok N.cp even (N.x3 x.1.1.1) (N.y3 x.1.1.2) (N.u1 x.1.2) (N.w1 x.2) t _
    (by simp [Nums.u1, m2.1]; omega) (by simp [Nums.w1, m3.1]; omega)
    (by
      have e1 : (N.x3 x.1.1.1).length = S1 - (N.i + N.co + N.po) := by simp only [Nums.x3, Nums.x2, Nums.x1, List.length_drop, List.length_reverse, m4.1]; omega
      have e2 : (N.y3 x.1.1.2).length = S2 - (N.i + N.ce + N.pe) := by simp only [Nums.y3, Nums.y2, Nums.y1, List.length_drop, List.length_reverse, m5.1]; omega
      have e3 : (N.u1 x.1.2).length - N.cp = L - (N.co + N.ce + N.cp) := by simp only [Nums.u1, List.length_drop, List.length_reverse, m2.1]; omega
      have e4 : (N.w1 x.2).length - N.cp = J - (N.po + N.pe + N.cp) := by simp only [Nums.w1, List.length_drop, List.length_reverse, m3.1]; omega
      rw [e1, e2, e3, e4]; exact hs) h1 h2 h3 h4 h7 _ rfl
  refine ⟨t', g1, g2, fun hne => ?_⟩
  have hs' : N.s5 x.1.1.1 x.1.1.2 x.1.2 x.2 ≠ 0 := by
    intro h0; apply hne; unfold Nums.q5; rw [h0]; simp
  obtain ⟨e1, e2, e3, e4, e5, e6⟩ := g3 hs'
  refine ⟨⟨e1, e2, e3, e4, by rw [e5, h5]; positivity, by rw [e6, h6]; positivity⟩, ?_, ?_⟩
  · rw [e5, h5]; unfold Nums.ea; push_cast; rfl
  · rw [e6, h6]; unfold Nums.eb; push_cast; rfl

end Rpwa.SpinTensor
