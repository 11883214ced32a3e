import Verif.Spec.Arrays
import Verif.Lemmas.Outcome
import Mathlib.Data.List.Basic
import Mathlib.Data.List.Nodup
import Mathlib.Order.MinMax
import Mathlib.Tactic.Cases
/-! # C98: combining the arrays of several bins -/
namespace Rpwa.Arrays

/-! ### indices -/

theorem inRange_iff : ∀ (x s : List ℕ), inRange x s = true ↔ List.Forall₂ (· < ·) x s
  | [], [] => by simp [inRange]
  | [], _ :: _ => by simp [inRange]
  | _ :: _, [] => by simp [inRange]
  | i :: x, d :: s => by simp [inRange, inRange_iff x s]

theorem inRange_append {x s : List ℕ} (h : inRange x s = true) {y t : List ℕ} : inRange (x ++ y) (s ++ t) = true ↔ inRange y t = true := by
  rw [inRange_iff] at h ⊢
  rw [inRange_iff]
  induction h with
  | nil => rfl
  | cons h1 _ ih => simp [h1, ih]

theorem larger_left : ∀ {x s t : List ℕ}, s.length = t.length → inRange x s = true → inRange x (larger s t) = true
  | [], [], [], _, h => h
  | i :: x, d :: s, e :: t, hl, h => by
    simp only [inRange, larger, List.zipWith_cons_cons, Bool.and_eq_true, decide_eq_true_eq] at h ⊢
    exact ⟨lt_of_lt_of_le h.1 (le_max_left _ _), larger_left (by simpa using hl) h.2⟩
  | [], _ :: _, _, _, h => by simp [inRange] at h
  | _ :: _, [], _, _, h => by simp [inRange] at h
  | _, [], _ :: _, hl, _ => by simp at hl
  | _, _ :: _, [], hl, _ => by simp at hl

theorem larger_comm (s t : List ℕ) : larger s t = larger t s := by
  unfold larger
  rw [List.zipWith_comm]
  congr 1
  funext a b
  exact max_comm b a

theorem larger_right {x s t : List ℕ} (hl : s.length = t.length) (h : inRange x t = true) : inRange x (larger s t) = true := by
  rw [larger_comm]
  exact larger_left hl.symm h

theorem larger_length {s t : List ℕ} (hl : s.length = t.length) : (larger s t).length = s.length := by
  unfold larger
  rw [List.length_zipWith, ← hl, min_self]

theorem inRange_length {x s : List ℕ} (h : inRange x s = true) : x.length = s.length := ((inRange_iff x s).1 h).length_eq

/-! ### copying -/

theorem copyFold {T : Type} (o : Ops T) (src : Arr T) (si ti : List ℕ) (k : ℕ) (D : List ℕ)
    (ih : ∀ (i : ℕ) (tgt : Arr T), i < src.shape.getD si.length 0 → (∀ r, inRange r D = true → inRange (ti ++ [i] ++ r) tgt.shape = true) →
      ∃ t', copyLoop o src k (si ++ [i]) (ti ++ [i]) tgt = .ok t' ∧ t'.shape = tgt.shape ∧
        (∀ r, inRange r D = true → t'.elem (ti ++ [i] ++ r) = o.copyElem (src.elem (si ++ [i] ++ r)) (tgt.elem (ti ++ [i] ++ r))) ∧
        (∀ x, (∀ r, inRange r D = true → x ≠ ti ++ [i] ++ r) → t'.elem x = tgt.elem x)) :
    ∀ (l : List ℕ), l.Nodup → (∀ i ∈ l, i < src.shape.getD si.length 0) → ∀ tgt : Arr T,
      (∀ i ∈ l, ∀ r, inRange r D = true → inRange (ti ++ [i] ++ r) tgt.shape = true) →
      ∃ t', l.foldlM (fun t i => copyLoop o src k (si ++ [i]) (ti ++ [i]) t) tgt = .ok t' ∧ t'.shape = tgt.shape ∧
        (∀ i ∈ l, ∀ r, inRange r D = true → t'.elem (ti ++ [i] ++ r) = o.copyElem (src.elem (si ++ [i] ++ r)) (tgt.elem (ti ++ [i] ++ r))) ∧
        (∀ x, (∀ i ∈ l, ∀ r, inRange r D = true → x ≠ ti ++ [i] ++ r) → t'.elem x = tgt.elem x) := by
  intro l
  induction l with
  | nil => intro _ _ tgt _; exact ⟨tgt, rfl, rfl, by simp, by simp⟩
  | cons j l ihl =>
    intro hn hl tgt ht
    obtain ⟨t1, a1, a2, a3, a4⟩ := ih j tgt (hl j List.mem_cons_self) (ht j List.mem_cons_self)
    obtain ⟨t2, b1, b2, b3, b4⟩ := ihl (List.nodup_cons.1 hn).2 (fun i hi => hl i (List.mem_cons_of_mem _ hi)) t1
      (fun i hi r hr => by rw [a2]; exact ht i (List.mem_cons_of_mem _ hi) r hr)
    have hne : ∀ i j : ℕ, i ≠ j → ∀ r r' : List ℕ, ti ++ [i] ++ r ≠ ti ++ [j] ++ r' := by
      intro i j hij r r' h
      rw [List.append_assoc, List.append_assoc] at h
      have := List.append_cancel_left h
      simp only [List.singleton_append, List.cons.injEq] at this
      exact hij this.1
    refine ⟨t2, ?_, b2.trans a2, ?_, ?_⟩
    · rw [List.foldlM_cons, a1]
      exact b1
    · intro i hi r hr
      rcases List.mem_cons.1 hi with rfl | hi
      · rw [b4 _ (fun i' hi' r' _ => hne i i' (fun h => (List.nodup_cons.1 hn).1 (h ▸ hi')) r r'), a3 r hr]
      · rw [b3 i hi r hr, a4 _ (fun r' _ => hne i j (fun h => (List.nodup_cons.1 hn).1 (h ▸ hi)) r r')]
    · intro x hx
      rw [b4 x (fun i hi => hx i (List.mem_cons_of_mem _ hi)), a4 x (hx j List.mem_cons_self)]

theorem copyLoop_spec {T : Type} (o : Ops T) (src : Arr T) : ∀ (k : ℕ) (si ti : List ℕ) (tgt : Arr T), si.length + k = src.shape.length →
    inRange si (src.shape.take si.length) = true → (∀ r, inRange r (src.shape.drop si.length) = true → inRange (ti ++ r) tgt.shape = true) →
    ∃ t', copyLoop o src k si ti tgt = .ok t' ∧ t'.shape = tgt.shape ∧
      (∀ r, inRange r (src.shape.drop si.length) = true → t'.elem (ti ++ r) = o.copyElem (src.elem (si ++ r)) (tgt.elem (ti ++ r))) ∧
      (∀ x, (∀ r, inRange r (src.shape.drop si.length) = true → x ≠ ti ++ r) → t'.elem x = tgt.elem x)
  | 0, si, ti, tgt, hk, hs, ht => by
    have hd : src.shape.drop si.length = [] := List.drop_eq_nil_of_le (by omega)
    have hs' : inRange si src.shape = true := by rwa [List.take_of_length_le (by omega)] at hs
    rw [hd] at ht ⊢
    have ht' : inRange ti tgt.shape = true := by simpa using ht [] rfl
    refine ⟨⟨tgt.shape, fun y => if y = ti then o.copyElem (src.elem si) (tgt.elem ti) else tgt.elem y⟩, ?_, rfl, ?_, ?_⟩
    · unfold copyLoop Arr.at Arr.put
      rw [if_pos hs', if_pos ht', Outcome.ok_bind, Outcome.ok_bind, if_pos ht']
    · intro r hr
      have : r = [] := by cases r with
        | nil => rfl
        | cons => simp [inRange] at hr
      subst this
      simp
    · intro x hx
      have : x ≠ ti := by simpa using hx [] rfl
      dsimp only
      rw [if_neg this]
  | k + 1, si, ti, tgt, hk, hs, ht => by
    have hlt : si.length < src.shape.length := by omega
    have hd : src.shape.drop si.length = src.shape[si.length] :: src.shape.drop (si.length + 1) := List.drop_eq_getElem_cons hlt
    have hg : src.shape.getD si.length 0 = src.shape[si.length] := by rw [List.getD_eq_getElem?_getD, List.getElem?_eq_getElem hlt]; rfl
    rw [hd] at ht ⊢
    obtain ⟨t', h1, h2, h3, h4⟩ := copyFold o src si ti k (src.shape.drop (si.length + 1)) (by
      intro i tgt' hi ht'
      have hlen : (si ++ [i]).length = si.length + 1 := by simp
      have := copyLoop_spec o src k (si ++ [i]) (ti ++ [i]) tgt' (by rw [hlen]; omega) (by
        rw [hlen, List.take_succ_eq_append_getElem hlt, inRange_append hs]
        rw [hg] at hi
        simp [inRange, hi]) (by rw [hlen]; exact ht')
      rw [hlen] at this
      exact this) (List.range (src.shape.getD si.length 0)) List.nodup_range (fun i hi => List.mem_range.1 hi) tgt (by
        intro i hi r hr
        rw [List.append_assoc]
        refine ht ([i] ++ r) ?_
        have := List.mem_range.1 hi
        rw [hg] at this
        show (decide (i < _) && inRange r _) = true
        rw [hr, Bool.and_true]
        exact decide_eq_true this)
    have split : ∀ r, inRange r (src.shape[si.length] :: src.shape.drop (si.length + 1)) = true → ∃ i r', r = i :: r' ∧ i < src.shape[si.length] ∧
        inRange r' (src.shape.drop (si.length + 1)) = true := by
      intro r hr
      cases r with
      | nil => simp [inRange] at hr
      | cons i r' =>
        simp only [inRange, Bool.and_eq_true, decide_eq_true_eq] at hr
        exact ⟨i, r', rfl, hr.1, hr.2⟩
    refine ⟨t', by unfold copyLoop; exact h1, h2, ?_, ?_⟩
    · intro r hr
      obtain ⟨i, r', rfl, hi, hr'⟩ := split r hr
      have := h3 i (List.mem_range.2 (by rw [hg]; exact hi)) r' hr'
      rw [List.append_assoc, List.append_assoc, List.singleton_append] at this
      exact this
    · intro x hx
      refine h4 x fun i hi r hr => ?_
      rw [List.append_assoc, List.singleton_append]
      refine hx _ ?_
      have := List.mem_range.1 hi
      rw [hg] at this
      show (decide (i < _) && inRange r _) = true
      rw [hr, Bool.and_true]
      exact decide_eq_true this

/-- **C98.** Copying an array into a part of another one that is large enough: every element arrives, everything else stays; never is memory of others touched. -/
theorem copy_spec {T : Type} (o : Ops T) (src tgt : Arr T) (ti : List ℕ) (hd : ti.length + src.shape.length = tgt.shape.length)
    (ht : ∀ r, inRange r src.shape = true → inRange (ti ++ r) tgt.shape = true) :
    ∃ t', copyMultiArray o src [] tgt ti = .ok t' ∧ t'.shape = tgt.shape ∧
      (∀ r, inRange r src.shape = true → t'.elem (ti ++ r) = o.copyElem (src.elem r) (tgt.elem (ti ++ r))) ∧
      (∀ x, (∀ r, inRange r src.shape = true → x ≠ ti ++ r) → t'.elem x = tgt.elem x) := by
  unfold copyMultiArray
  rw [if_pos ⟨by simp, by omega, by simp; omega⟩]
  exact copyLoop_spec o src (src.shape.length - 0) [] ti tgt (by simp) (by simp [inRange]) ht

/-- **C98.** Arrays with other numbers of dimensions are refused. -/
theorem copy_refused {T : Type} (o : Ops T) (src tgt : Arr T) (ti : List ℕ) (hd : ti.length + src.shape.length ≠ tgt.shape.length) (h : ti.length ≤ tgt.shape.length) :
    copyMultiArray o src [] tgt ti = .terminate := by
  unfold copyMultiArray
  rw [if_neg (fun h' => hd (by have := h'.2.2; simp at this; omega))]

/-! ### growing -/

theorem newDims_eq : ∀ {s t : List ℕ}, s.length = t.length → (newDims s t).2 = larger s t ∧ ((newDims s t).1 = false → larger s t = s)
  | [], [], _ => ⟨rfl, fun _ => rfl⟩
  | d :: s, e :: t, h => by
    obtain ⟨h1, h2⟩ := newDims_eq (s := s) (t := t) (by simpa using h)
    unfold newDims
    by_cases hd : d < e
    · rw [if_pos hd]
      refine ⟨?_, fun h => by cases h⟩
      dsimp only
      rw [h1]
      show _ = max d e :: larger s t
      rw [max_eq_right (by omega)]
    · rw [if_neg hd]
      refine ⟨?_, fun h => ?_⟩
      · dsimp only
        rw [h1]
        show _ = max d e :: larger s t
        rw [max_eq_left (by omega)]
      · show max d e :: larger s t = _
        rw [max_eq_left (by omega), h2 h]
  | [], _ :: _, h => by simp at h
  | _ :: _, [], h => by simp at h

/-- an array that was made larger: the content stays, the rest is the default. -/
structure IsGrown {T : Type} (d : T) (a : Arr T) (m : ℕ) (part : List ℕ) (a' : Arr T) : Prop where
  shape : ∀ n ds, a.shape = n :: ds → a'.shape = max n m :: larger ds part
  elem : ∀ x, inRange x a'.shape = true → a'.elem x = value d a x

/-- **C98.** Growing keeps the content, the rest is the default. -/
theorem adjust_spec {T : Type} (d : T) (a : Arr T) (m : ℕ) (part : List ℕ) (hd : a.shape.length = part.length + 1) :
    IsGrown d a m part (adjustSize (Ops.plain d) a part m) := by
  unfold adjustSize
  match hs : a.shape with
  | [] => rw [hs] at hd; simp at hd
  | n :: ds =>
    rw [hs] at hd
    have hl : ds.length = part.length := by simpa using hd
    obtain ⟨h1, h2⟩ := newDims_eq hl
    dsimp only
    by_cases hc : ((n < m) || (newDims ds part).1) = true
    · rw [if_pos hc]
      refine ⟨fun n' ds' h => ?_, fun x hx => ?_⟩
      · rw [hs] at h
        cases h
        show _ :: (newDims ds part).2 = _
        rw [h1]
      · have hx' : inRange x (max n m :: (newDims ds part).2) = true := hx
        show (if inRange x a.shape && inRange x (max n m :: (newDims ds part).2) then _ else _) = _
        unfold value
        rw [hx', Bool.and_true]
        rfl
    · rw [if_neg hc]
      simp only [Bool.or_eq_true, decide_eq_true_eq, not_or, Bool.not_eq_true] at hc
      refine ⟨fun n' ds' h => ?_, fun x hx => ?_⟩
      · rw [hs] at h
        cases h
        rw [hs, h2 hc.2, max_eq_left (by omega)]
      · unfold value
        rw [if_pos hx]

/-- **C98.** The same for arrays of matrices, whatever the sizes of the matrices are. -/
theorem adjustMat_spec {R : Type} (z : R) (a : Arr (Mat R)) (m : ℕ) (part : List ℕ) (hd : a.shape.length = part.length + 1) :
    ∃ a', adjustSizeMat z a part m = .ok a' ∧ IsGrown (Ops.mat z).default a m part a' := by
  unfold adjustSizeMat
  match hs : a.shape with
  | [] => rw [hs] at hd; simp at hd
  | n :: ds =>
    rw [hs] at hd
    have hl : ds.length = part.length := by simpa using hd
    obtain ⟨h1, h2⟩ := newDims_eq hl
    dsimp only
    by_cases hc : ((n < m) || (newDims ds part).1) = true
    · rw [if_pos hc]
      obtain ⟨t1, a1, a2, a3, a4⟩ := copy_spec (Ops.mat z) a (Arr.new (Ops.mat z) (n :: ds)) [] (by simp [hs, Arr.new]) (fun r hr => by
        rw [hs] at hr; exact hr)
      have hzero : ∀ x, inRange x ((n :: ds).map fun _ => 0) = false := by
        intro x
        cases x <;> simp [inRange]
      have hgrow : ∀ r, inRange r (n :: ds) = true → inRange r (max n m :: (newDims ds part).2) = true := by
        intro r hr
        cases r with
        | nil => simp [inRange] at hr
        | cons i r =>
          simp only [inRange, Bool.and_eq_true, decide_eq_true_eq] at hr ⊢
          exact ⟨lt_of_lt_of_le hr.1 (le_max_left _ _), by rw [h1]; exact larger_left hl hr.2⟩
      have e2 : t1.shape = n :: ds := a2
      obtain ⟨t2, b1, b2, b3, b4⟩ := copy_spec (Ops.mat z) t1 ((a.resize (Ops.mat z) ((n :: ds).map fun _ => 0)).resize (Ops.mat z) (max n m :: (newDims ds part).2)) []
        (by rw [e2]; show 0 + _ = (max n m :: (newDims ds part).2).length; rw [h1, List.length_cons, List.length_cons, larger_length hl]; omega) (fun r hr => by
          rw [e2] at hr
          exact hgrow r hr)
      rw [a1, Outcome.ok_bind]
      refine ⟨t2, b1, fun n' ds' h => ?_, fun x hx => ?_⟩
      · rw [hs] at h
        cases h
        rw [b2]
        show _ :: (newDims ds part).2 = _
        rw [h1]
      · unfold value
        rw [hs]
        by_cases hx' : inRange x (n :: ds) = true
        · rw [if_pos hx']
          have p := b3 x (by rw [e2]; exact hx')
          have q := a3 x (by rw [hs]; exact hx')
          rw [List.nil_append] at p q
          rw [p]
          show t1.elem x = _
          rw [q]
          rfl
        · rw [if_neg hx', b4 x (fun r hr he => hx' (by rw [he, List.nil_append]; rw [e2] at hr; exact hr))]
          show (if inRange x ((n :: ds).map fun _ => 0) && _ then _ else _) = _
          rw [hzero]
          rfl
    · rw [if_neg hc]
      simp only [Bool.or_eq_true, decide_eq_true_eq, not_or, Bool.not_eq_true] at hc
      refine ⟨a, rfl, fun n' ds' h => ?_, fun x hx => ?_⟩
      · rw [hs] at h
        cases h
        rw [hs, h2 hc.2, max_eq_left (by omega)]
      · unfold value
        rw [if_pos hx]

/-- **C98.** Why matrices need their own function: with the ordinary one a matrix with rows is lost as soon as the array has to grow. -/
theorem plain_loses {R : Type} (z : R) (a : Arr (Mat R)) (m n : ℕ) (part ds : List ℕ) (hs : a.shape = n :: ds) (hm : n < m) (x : List ℕ) (hx : (a.elem x).rows ≠ 0) :
    ((adjustSize (Ops.mat z) a part m).elem x).rows = 0 := by
  unfold adjustSize
  rw [hs]
  dsimp only
  rw [if_pos (by simp [hm])]
  show (if inRange x a.shape && inRange x (max n m :: (newDims ds part).2) then (if (a.elem x).rows = 0 ∧ (a.elem x).cols = 0 then a.elem x else ⟨0, 0, fun _ _ => z⟩)
    else ⟨0, 0, fun _ _ => z⟩ : Mat R).rows = 0
  rw [if_neg (c := (a.elem x).rows = 0 ∧ (a.elem x).cols = 0) (fun h => hx h.1)]
  split <;> rfl

/-! ### setting a part -/

theorem set_of_grown {T : Type} (o : Ops T) (ho : ∀ v old, o.copyElem v old = v) (d : T) (a g p : Arr T) (idx : ℕ) (hd : a.shape.length = p.shape.length + 1)
    (hg : IsGrown d a (idx + 1) p.shape g) : ∃ a', copyMultiArray o p [] g [idx] = .ok a' ∧ IsSet d a idx p a' := by
  match hs : a.shape with
  | [] => rw [hs] at hd; simp at hd
  | n :: ds =>
    rw [hs] at hd
    have hl : ds.length = p.shape.length := by simpa using hd
    have hsh := hg.shape n ds hs
    obtain ⟨t, h1, h2, h3, h4⟩ := copy_spec o p g [idx] (by rw [hsh]; have := larger_length hl; simp only [List.length_cons, List.length_nil]; omega) (fun r hr => by
      rw [hsh]
      simp only [List.singleton_append, inRange, Bool.and_eq_true, decide_eq_true_eq]
      exact ⟨by omega, larger_right hl hr⟩)
    refine ⟨t, h1, fun n' ds' h => ?_, fun i x hx => ?_⟩
    · rw [hs] at h
      cases h
      rw [h2, hsh]
    · by_cases hc : i = idx ∧ inRange x p.shape = true
      · rw [if_pos hc, hc.1]
        have := h3 x hc.2
        rw [ho] at this
        exact this
      · rw [if_neg hc, h4 (i :: x) (fun r hr he => hc (by
          simp only [List.singleton_append, List.cons.injEq] at he
          rw [he.1, he.2]
          exact ⟨rfl, hr⟩)), hg.elem _ (by rw [← h2]; exact hx)]

/-- **C98.** Setting a part of an array: never out of range; the part is there, everything else stays. -/
theorem setPart_spec {T : Type} (d : T) (a p : Arr T) (idx : ℕ) (hd : a.shape.length = p.shape.length + 1) :
    ∃ a', setPart (Ops.plain d) a idx p = .ok a' ∧ IsSet d a idx p a' :=
  set_of_grown (Ops.plain d) (fun _ _ => rfl) d a _ p idx hd (adjust_spec d a (idx + 1) p.shape hd)

/-- **C98.** The same for matrices. -/
theorem setPartMat_spec {R : Type} (z : R) (a p : Arr (Mat R)) (idx : ℕ) (hd : a.shape.length = p.shape.length + 1) :
    ∃ a', setPartMat z a idx p = .ok a' ∧ IsSet (Ops.mat z).default a idx p a' := by
  obtain ⟨g, h1, h2⟩ := adjustMat_spec z a (idx + 1) p.shape hd
  unfold setPartMat
  rw [h1, Outcome.ok_bind]
  exact set_of_grown (Ops.mat z) (fun _ _ => rfl) _ a g p idx hd h2

/-- **C98.** One dimension: an element. -/
theorem setOne_spec {T : Type} (d : T) (a : Arr T) (idx n : ℕ) (v : T) (hs : a.shape = [n]) :
    ∃ a', setOne (Ops.plain d) a idx v = .ok a' ∧ a'.shape = [max n (idx + 1)] ∧ a'.elem [idx] = v ∧ ∀ i, i ≠ idx → i < max n (idx + 1) → a'.elem [i] = value d a [i] := by
  have hg := adjust_spec d a (idx + 1) [] (by rw [hs]; rfl)
  have hsh : (adjustSize (Ops.plain d) a [] (idx + 1)).shape = [max n (idx + 1)] := hg.shape n [] hs
  have hin : inRange [idx] (adjustSize (Ops.plain d) a [] (idx + 1)).shape = true := by
    rw [hsh]; simp [inRange]
  refine ⟨⟨(adjustSize (Ops.plain d) a [] (idx + 1)).shape, fun y => if y = [idx] then v else (adjustSize (Ops.plain d) a [] (idx + 1)).elem y⟩, ?_, hsh, ?_, ?_⟩
  · unfold setOne Arr.at Arr.put
    dsimp only
    rw [if_pos hin, Outcome.ok_bind, if_pos hin]
    rfl
  · simp
  · intro i hi hlt
    dsimp only
    rw [if_neg (by simpa using hi)]
    refine hg.elem [i] ?_
    rw [hsh]
    simpa [inRange] using hlt

/-! ### all bins -/

theorem foldl_larger_length (dim : ℕ) : ∀ (l : List (List ℕ)) (s : List ℕ), s.length = dim → (∀ t ∈ l, t.length = dim) → (l.foldl larger s).length = dim
  | [], s, h, _ => h
  | t :: l, s, h, hl => by
    rw [List.foldl_cons]
    exact foldl_larger_length dim l _ (by rw [larger_length (by rw [h, hl t List.mem_cons_self])]; exact h) fun x hx => hl x (List.mem_cons_of_mem _ hx)

theorem foldl_larger_le (dim : ℕ) : ∀ (l : List (List ℕ)) (s : List ℕ), s.length = dim → (∀ t ∈ l, t.length = dim) → ∀ x, inRange x s = true →
    inRange x (l.foldl larger s) = true
  | [], _, _, _, _, hx => hx
  | t :: l, s, h, hl, x, hx => by
    rw [List.foldl_cons]
    have e : s.length = t.length := by rw [h, hl t List.mem_cons_self]
    exact foldl_larger_le dim l _ (by rw [larger_length e]; exact h) (fun y hy => hl y (List.mem_cons_of_mem _ hy)) x (larger_left e hx)

theorem combine_go {T : Type} (d : T) (dim : ℕ) (set : Arr T → ℕ → Arr T → Outcome (Arr T))
    (hset : ∀ a idx p, a.shape.length = p.shape.length + 1 → ∃ a', set a idx p = .ok a' ∧ IsSet d a idx p a') :
    ∀ (todo done : List (Arr T)) (a : Arr T), (∀ p ∈ done, p.shape.length = dim) → (∀ p ∈ todo, p.shape.length = dim) → IsCombined d dim done a →
      ∃ a', combine set a done.length todo = .ok a' ∧ IsCombined d dim (done ++ todo) a'
  | [], done, a, _, _, h => ⟨a, by unfold combine; rfl, by rw [List.append_nil]; exact h⟩
  | p :: ps, done, a, hd, ht, h => by
    have hS : ((done.map (·.shape)).foldl larger (List.replicate dim 0)).length = dim := foldl_larger_length dim _ _ (by simp) (by
      intro t ht'
      obtain ⟨q, hq, rfl⟩ := List.mem_map.1 ht'
      exact hd q hq)
    have hp := ht p List.mem_cons_self
    obtain ⟨a1, h1, h2⟩ := hset a done.length p (by rw [h.shape, List.length_cons, hS, hp])
    have hsh : a1.shape = (done ++ [p]).length :: ((done ++ [p]).map (·.shape)).foldl larger (List.replicate dim 0) := by
      rw [h2.shape _ _ h.shape, List.map_append, List.foldl_append]
      simp
    have hin : ∀ b x q, done[b]? = some q → inRange x q.shape = true → inRange (b :: x) a1.shape = true := by
      intro b x q hq hx
      have h3 := h.complete b x q hq hx
      rw [h.shape] at h3
      rw [h2.shape _ _ h.shape]
      simp only [inRange, Bool.and_eq_true, decide_eq_true_eq] at h3 ⊢
      exact ⟨by omega, larger_left (by rw [hS, hp]) h3.2⟩
    have hc : IsCombined d dim (done ++ [p]) a1 := by
      refine ⟨hsh, fun b x q hq hx => ?_, fun b x q hq hx => ?_⟩
      · rw [h2.elem b x hx]
        rcases Nat.lt_trichotomy b done.length with hb | hb | hb
        · rw [List.getElem?_append_left hb] at hq
          rw [if_neg (fun h' => by omega)]
          by_cases hx' : inRange (b :: x) a.shape = true
          · have := h.elem b x q hq hx'
            unfold value at this ⊢
            rw [if_pos hx']
            exact this
          · have : ¬ inRange x q.shape = true := fun h' => hx' (h.complete b x q hq h')
            unfold value
            rw [if_neg hx', if_neg this]
        · subst hb
          rw [List.getElem?_concat_length] at hq
          cases hq
          unfold value
          by_cases hx' : inRange x p.shape = true
          · rw [if_pos ⟨rfl, hx'⟩, if_pos hx']
          · rw [if_neg (fun h' => hx' h'.2), if_neg hx', h.shape, if_neg (by simp [inRange])]
        · rw [List.getElem?_eq_none (by simp; omega)] at hq
          cases hq
      · rcases Nat.lt_trichotomy b done.length with hb | hb | hb
        · rw [List.getElem?_append_left hb] at hq
          exact hin b x q hq hx
        · subst hb
          rw [List.getElem?_concat_length] at hq
          cases hq
          rw [h2.shape _ _ h.shape]
          simp only [inRange, Bool.and_eq_true, decide_eq_true_eq]
          exact ⟨by omega, larger_right (by rw [hS, hp]) hx⟩
        · rw [List.getElem?_eq_none (by simp; omega)] at hq
          cases hq
    obtain ⟨a2, g1, g2⟩ := combine_go d dim set hset ps (done ++ [p]) a1 (fun q hq => by
      rcases List.mem_append.1 hq with h' | h'
      · exact hd q h'
      · rw [List.mem_singleton.1 h']; exact hp) (fun q hq => ht q (List.mem_cons_of_mem _ hq)) hc
    refine ⟨a2, ?_, by rw [List.append_assoc] at g2; exact g2⟩
    unfold combine
    rw [h1, Outcome.ok_bind]
    rw [List.length_append, List.length_singleton] at g1
    exact g1

/-- **C98.** The arrays of all bins are combined without loss: `a[b][i]…` is the element `i…` of bin `b`, the default where this bin is smaller than others. -/
theorem combine_plain {T : Type} (d : T) (dim : ℕ) (parts : List (Arr T)) (h : ∀ p ∈ parts, p.shape.length = dim) :
    ∃ a, combine (setPart (Ops.plain d)) (Arr.new (Ops.plain d) (0 :: List.replicate dim 0)) 0 parts = .ok a ∧ IsCombined d dim parts a :=
  combine_go d dim _ (fun a idx p hd => setPart_spec d a p idx hd) parts [] _ (by simp) h
    ⟨rfl, fun b x p hp => by simp at hp, fun b x p hp => by simp at hp⟩

/-- **C98.** The same for covariance matrices, also of different sizes. -/
theorem combine_mat {R : Type} (z : R) (dim : ℕ) (parts : List (Arr (Mat R))) (h : ∀ p ∈ parts, p.shape.length = dim) :
    ∃ a, combine (setPartMat z) (Arr.new (Ops.mat z) (0 :: List.replicate dim 0)) 0 parts = .ok a ∧ IsCombined (Ops.mat z).default dim parts a :=
  combine_go _ dim _ (fun a idx p hd => setPartMat_spec z a p idx hd) parts [] _ (by simp) h
    ⟨rfl, fun b x p hp => by simp at hp, fun b x p hp => by simp at hp⟩

/-- **C98.** Setting a smaller part where a larger one was leaves a mixture of both. -/
theorem stale {T : Type} (d : T) (a p q : Arr T) (idx : ℕ) (hp : a.shape.length = p.shape.length + 1) (hq : q.shape.length = p.shape.length) :
    ∃ a1 a2, setPart (Ops.plain d) a idx p = .ok a1 ∧ setPart (Ops.plain d) a1 idx q = .ok a2 ∧
      ∀ x, inRange x p.shape = true → inRange x q.shape = false → a2.elem (idx :: x) = p.elem x := by
  match hs : a.shape with
  | [] => rw [hs] at hp; simp at hp
  | n :: ds =>
    have hl : ds.length = p.shape.length := by rw [hs] at hp; simpa using hp
    obtain ⟨a1, h1, h2⟩ := setPart_spec d a p idx hp
    have hsh := h2.shape n ds hs
    have hd1 : a1.shape.length = q.shape.length + 1 := by rw [hsh, List.length_cons, larger_length hl, hl, hq]
    obtain ⟨a2, h3, h4⟩ := setPart_spec d a1 q idx hd1
    refine ⟨a1, a2, h1, h3, fun x hx hx' => ?_⟩
    have hin1 : inRange (idx :: x) a1.shape = true := by
      rw [hsh]
      simp only [inRange, Bool.and_eq_true, decide_eq_true_eq]
      exact ⟨by omega, larger_right hl hx⟩
    have hin2 : inRange (idx :: x) a2.shape = true := by
      rw [h4.shape _ _ hsh]
      simp only [inRange, Bool.and_eq_true, decide_eq_true_eq]
      exact ⟨by omega, larger_left (by rw [larger_length hl, hl, hq]) (larger_right hl hx)⟩
    rw [h4.elem idx x hin2, if_neg (by simp [hx'])]
    unfold value
    rw [if_pos hin1, h2.elem idx x hin1, if_pos ⟨rfl, hx⟩]

/-! ### vectors and sizes -/

theorem setVec_spec {T : Type} (d : T) (l : List T) (idx : ℕ) (v : T) :
    (setVec d l idx v).length = max l.length (idx + 1) ∧ (setVec d l idx v)[idx]? = some v ∧
      ∀ i, i ≠ idx → i < max l.length (idx + 1) → (setVec d l idx v)[i]? = some (l[i]?.getD d) := by
  have hlen : (l ++ List.replicate (idx + 1 - l.length) d).length = max l.length (idx + 1) := by
    rw [List.length_append, List.length_replicate]; omega
  unfold setVec
  refine ⟨by rw [List.length_set, hlen], by rw [List.getElem?_set_self (by rw [hlen]; omega)], fun i hi hlt => ?_⟩
  rw [List.getElem?_set_ne (Ne.symm hi)]
  by_cases h : i < l.length
  · rw [List.getElem?_append_left h, List.getElem?_eq_getElem h]
    rfl
  · rw [List.getElem?_append_right (by omega), List.getElem?_replicate, if_pos (by omega), List.getElem?_eq_none (by omega)]
    rfl

/-- **C98.** The check of the sizes passes exactly for the expected ones. -/
theorem checkSize_iff : ∀ {s e : List ℕ}, s.length = e.length → (checkSize s e = .ok () ↔ s = e) ∧ (checkSize s e = .terminate ↔ s ≠ e)
  | [], [], _ => by simp [checkSize]
  | d :: s, e :: t, h => by
    obtain ⟨h1, h2⟩ := checkSize_iff (s := s) (e := t) (by simpa using h)
    unfold checkSize
    by_cases hde : e = d
    · subst hde
      rw [if_neg (not_not.2 rfl), h1, h2]
      simp
    · rw [if_pos hde]
      refine ⟨⟨fun h => (by cases h), fun h => ?_⟩, ⟨fun _ h => ?_, fun _ => rfl⟩⟩
      · exact absurd (List.cons.inj h).1.symm hde
      · exact hde (List.cons.inj h).1.symm
  | [], _ :: _, h => by simp at h
  | _ :: _, [], h => by simp at h

end Rpwa.Arrays
