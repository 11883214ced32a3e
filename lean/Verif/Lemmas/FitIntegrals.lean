import Verif.Spec.FitIntegrals
import Verif.Lemmas.Outcome
import Verif.Lemmas.FitFill
import Verif.Props.LikSetup
/-! # Lemmas for C87 -/
namespace Rpwa.FitInts

open Rpwa.Fit Rpwa.Integral

theorem forReturn_pure {σ : Type} (n : ℕ) (s : σ) (f : ℕ → σ → Outcome (Option σ)) (g : ℕ → σ → σ) (h : ∀ k < n, ∀ s, f k s = .ok (some (g k s))) :
    forReturn n s f = .ok (some (forPure n s g)) := by
  induction n with
  | zero => rfl
  | succ n ih =>
    unfold forReturn
    rw [ih fun k hk => h k (by omega)]
    exact h n (by omega) _

/-- a loop whose body never continues at some index does not finish. -/
theorem forReturn_stops {σ : Type} (n k : ℕ) (hk : k < n) (s s' : σ) (f : ℕ → σ → Outcome (Option σ)) (h : ∀ s t, f k s ≠ .ok (some t)) :
    forReturn n s f ≠ .ok (some s') := by
  induction n generalizing s' with
  | zero => omega
  | succ n ih =>
    unfold forReturn
    intro hc
    obtain ⟨o, h1, h2⟩ := Outcome.bind_eq_ok.1 hc
    cases o with
    | none => simp at h2
    | some t =>
      dsimp only at h2
      by_cases hkn : k = n
      · subst hkn; exact h _ _ h2
      · exact ih (by omega) t h1

theorem forPure_pair {α β : Type} (n : ℕ) (a : α) (b : β) (f : ℕ → α → α) (g : ℕ → β → β) :
    forPure n (a, b) (fun i s => (f i s.1, g i s.2)) = (forPure n a f, forPure n b g) := by
  induction n with
  | zero => rfl
  | succ n ih => unfold forPure; rw [ih]

theorem forPure_congr {α : Type} (n : ℕ) (a : α) (f g : ℕ → α → α) (h : ∀ i < n, ∀ s, f i s = g i s) : forPure n a f = forPure n a g := by
  induction n with
  | zero => rfl
  | succ n ih => unfold forPure; rw [ih fun i hi => h i (by omega), h n (by omega)]

theorem forPure_row (g : ℕ → ℕ → ℂ → ℂ) (i n : ℕ) (M : Mat ℂ) :
    forPure n M (fun j M => setAt M i j (g i j (M.entry i j))) =
      ⟨M.nRows, M.nCols, fun a b => if a = i ∧ b < n then g a b (M.entry a b) else M.entry a b⟩ := by
  induction n with
  | zero => simp [forPure]
  | succ n ih =>
    unfold forPure
    rw [ih]
    unfold setAt
    dsimp only
    congr 1
    funext a b
    by_cases ha : a = i
    · subst ha
      by_cases hb : b = n
      · subst hb; simp
      · by_cases hb' : b < n
        · rw [if_neg (by omega), if_pos ⟨rfl, hb'⟩, if_pos ⟨rfl, by omega⟩]
        · rw [if_neg (by omega), if_neg (by omega), if_neg (by omega)]
    · rw [if_neg (by tauto), if_neg (by tauto), if_neg (by tauto)]

theorem forPure_all (g : ℕ → ℕ → ℂ → ℂ) (n m : ℕ) (M : Mat ℂ) :
    forPure n M (fun i M => forPure m M (fun j M => setAt M i j (g i j (M.entry i j)))) =
      ⟨M.nRows, M.nCols, fun a b => if a < n ∧ b < m then g a b (M.entry a b) else M.entry a b⟩ := by
  induction n with
  | zero => simp [forPure]
  | succ n ih =>
    conv_lhs => unfold forPure
    rw [ih]
    dsimp only
    rw [forPure_row]
    dsimp only
    congr 1
    funext a b
    by_cases hb : b < m
    · by_cases ha : a = n
      · subst ha; rw [if_pos ⟨rfl, hb⟩, if_neg (by omega), if_pos ⟨by omega, hb⟩]
      · by_cases ha' : a < n
        · rw [if_neg (by tauto), if_pos ⟨ha', hb⟩, if_pos ⟨by omega, hb⟩]
        · rw [if_neg (by tauto), if_neg (by tauto), if_neg (by omega)]
    · rw [if_neg (by tauto), if_neg (by tauto), if_neg (by tauto)]

theorem forPure_set (f : ℕ → ℝ) (n : ℕ) (l : List ℝ) (k : ℕ) :
    (forPure n l fun i l => l.set i (f i))[k]? = if k < n ∧ k < l.length then some (f k) else l[k]? := by
  have hlen : ∀ n, (forPure n l fun i l => l.set i (f i)).length = l.length := by
    intro n
    induction n with
    | zero => rfl
    | succ n ih => unfold forPure; rw [List.length_set, ih]
  induction n with
  | zero => simp [forPure]
  | succ n ih =>
    unfold forPure
    rw [List.getElem?_set, hlen, ih]
    by_cases h : n = k
    · subst h
      by_cases h2 : n < l.length
      · simp [h2]
      · simp only [h2, if_true, if_false, and_false]
        exact (List.getElem?_eq_none (by omega)).symm
    · rw [if_neg h]
      by_cases hk : k < n
      · have : k < n + 1 := by omega
        simp [hk, this]
      · have : ¬ k < n + 1 := by omega
        simp [hk, this]

theorem phaseSpace_eq (N : Mat ℂ) (n1 : ℕ) :
    phaseSpace N n1 (List.replicate (n1 + 1) 0) = (List.range n1).map (fun i => Real.sqrt (N.entry i i).re) ++ [1] := by
  unfold phaseSpace
  have hlen : (forPure n1 (List.replicate (n1 + 1) 0) fun i ps => ps.set i (Real.sqrt (N.entry i i).re)).length = n1 + 1 := by
    generalize hl : List.replicate (n1 + 1) (0 : ℝ) = l
    have h : ∀ n, (forPure n l fun i ps => ps.set i (Real.sqrt (N.entry i i).re)).length = l.length := by
      intro n
      induction n with
      | zero => rfl
      | succ n ih => unfold forPure; rw [List.length_set, ih]
    rw [h, ← hl]; simp
  apply List.ext_getElem?
  intro k
  rw [List.getElem?_set, hlen, forPure_set]
  by_cases h1 : n1 = k
  · subst h1; simp
  · rw [if_neg h1]
    by_cases h2 : k < n1
    · have h3 : k < (List.replicate (n1 + 1) (0 : ℝ)).length := by simp; omega
      rw [if_pos ⟨h2, h3⟩, List.getElem?_append_left (by simpa using h2)]
      simp [h2]
    · rw [if_neg (by tauto), List.getElem?_eq_none (by simp; omega), List.getElem?_eq_none (by simp; omega)]

theorem clearLast_eq (n1 : ℕ) (M : Mat ℂ) : clearLast (n1 + 1) M =
    ⟨M.nRows, M.nCols, fun a b => if (a = n1 ∧ b ≤ n1) ∨ (b = n1 ∧ a ≤ n1) then 0 else M.entry a b⟩ := by
  have h : ∀ n, forPure n M (fun i M => setAt (setAt M n1 i 0) i n1 0) =
      ⟨M.nRows, M.nCols, fun a b => if (a = n1 ∧ b < n) ∨ (b = n1 ∧ a < n) then 0 else M.entry a b⟩ := by
    intro n
    induction n with
    | zero => simp [forPure]
    | succ n ih =>
      unfold forPure
      rw [ih]
      unfold setAt
      dsimp only
      congr 1
      funext a b
      split_ifs <;> first | rfl | omega
  unfold clearLast
  rw [Nat.add_sub_cancel, h]
  congr 1
  funext a b
  simp only [Nat.lt_add_one_iff]

theorem setAt_eq (M : Mat ℂ) (i j : ℕ) (z : ℂ) : setAt M i j z = ⟨M.nRows, M.nCols, fun a b => if a = i ∧ b = j then z else M.entry a b⟩ := rfl

/-- the integral of two waves per event, 0 for waves of different reflectivity. -/
noncomputable def val (m : IntMat) (gen : ℕ) (r : FitResult) (i j : ℕ) : ℂ :=
  let a := r.waveNames.getD i []
  let b := r.waveNames.getD j []
  if getReflectivity a = getReflectivity b then m.entry (String.ofList a) (String.ofList b) / (gen : ℂ) else 0

theorem copyLoop_ok (norm acc : IntMat) (r : FitResult) (waves : List Name) (hw : r.waveNames = waves ++ ["flat".toList])
    (hc : Covers norm acc waves) (s : Mat ℂ × Mat ℂ) :
    copyLoop norm { acc with nmbEvents := norm.nmbEvents } r waves.length s = .ok (some
      (⟨s.1.nRows, s.1.nCols, fun a b => if a < waves.length ∧ b < waves.length then val norm norm.nmbEvents r a b else s.1.entry a b⟩,
       ⟨s.2.nRows, s.2.nCols, fun a b => if a < waves.length ∧ b < waves.length then val acc norm.nmbEvents r a b else s.2.entry a b⟩)) := by
  have hname : ∀ k < waves.length, ∃ w ∈ waves, r.waveName k = .ok w ∧ r.waveNames.getD k [] = w := by
    intro k hk
    refine ⟨waves[k], List.getElem_mem hk, ?_, ?_⟩
    · unfold FitResult.waveName
      rw [hw, List.getElem?_append_left hk, List.getElem?_eq_getElem hk]
    · rw [hw, List.getD_eq_getElem?_getD, List.getElem?_append_left hk, List.getElem?_eq_getElem hk]; rfl
  have hne : ∀ w ∈ waves, w ≠ "flat".toList := fun w h hc' => hc.hflat (hc' ▸ h)
  have hstep : ∀ i < waves.length, ∀ s : Mat ℂ × Mat ℂ, (do
      let wi ← r.waveName i
      if wi = "flat".toList then Outcome.ok none
      else forReturn waves.length s (copyElement norm { acc with nmbEvents := norm.nmbEvents } r wi i)) =
      .ok (some (forPure waves.length s.1 (fun j M => setAt M i j ((fun i j _ => val norm norm.nmbEvents r i j) i j (M.entry i j))),
        forPure waves.length s.2 (fun j M => setAt M i j ((fun i j _ => val acc norm.nmbEvents r i j) i j (M.entry i j))))) := by
    intro i hi s
    obtain ⟨wi, hwi, h1, h1'⟩ := hname i hi
    rw [h1, Outcome.ok_bind, if_neg (hne wi hwi)]
    rw [forReturn_pure (g := fun j s => (setAt s.1 i j (val norm norm.nmbEvents r i j), setAt s.2 i j (val acc norm.nmbEvents r i j)))]
    · exact congrArg (fun x => Outcome.ok (some x)) (forPure_pair waves.length s.1 s.2
        (fun j M => setAt M i j (val norm norm.nmbEvents r i j)) (fun j M => setAt M i j (val acc norm.nmbEvents r i j)))
    · intro j hj s
      obtain ⟨wj, hwj, h2, h2'⟩ := hname j hj
      unfold copyElement
      rw [h2, Outcome.ok_bind, if_neg (hne wj hwj)]
      obtain ⟨e, he⟩ := hc.hrefl wi hwi
      obtain ⟨f, hf⟩ := hc.hrefl wj hwj
      rw [he, hf]
      simp only [Outcome.ok_bind]
      have hacc : IntMat.WF { acc with nmbEvents := norm.nmbEvents } := ⟨hc.hacc.waves, hc.hacc.rows, hc.hacc.cols⟩
      have hv : ∀ m : IntMat, val m norm.nmbEvents r i j =
          if e = f then m.entry (String.ofList wi) (String.ofList wj) / (norm.nmbEvents : ℂ) else 0 := by
        intro m
        unfold val
        simp only [h1', h2', he, hf, Outcome.ok.injEq]
      rw [hv, hv]
      by_cases hef : e = f
      · simp only [if_pos hef]
        rw [Rpwa.Lik.elementByName_returns norm hc.hnorm _ _ (hc.hnormNames _ hwi) (hc.hnormNames _ hwj),
          Rpwa.Lik.elementByName_returns { acc with nmbEvents := norm.nmbEvents } hacc _ _ (hc.haccNames _ hwi) (hc.haccNames _ hwj)]
        rfl
      · simp only [if_neg hef]
  unfold copyLoop
  rw [forReturn_pure (g := fun i s =>
    (forPure waves.length s.1 (fun j M => setAt M i j ((fun i j _ => val norm norm.nmbEvents r i j) i j (M.entry i j))),
        forPure waves.length s.2 (fun j M => setAt M i j ((fun i j _ => val acc norm.nmbEvents r i j) i j (M.entry i j))))) (h := hstep)]
  refine (congrArg (fun x => Outcome.ok (some x)) (forPure_pair waves.length s.1 s.2
    (fun i M => forPure waves.length M (fun j M => setAt M i j ((fun i j _ => val norm norm.nmbEvents r i j) i j (M.entry i j))))
    (fun i M => forPure waves.length M (fun j M => setAt M i j ((fun i j _ => val acc norm.nmbEvents r i j) i j (M.entry i j)))))).trans ?_
  exact congrArg₂ (fun x y => Outcome.ok (some (x, y))) (forPure_all (fun i j _ => val norm norm.nmbEvents r i j) waves.length waves.length s.1)
    (forPure_all (fun i j _ => val acc norm.nmbEvents r i j) waves.length waves.length s.2)

/-- the matrices that are stored. -/
noncomputable def normVal (norm : IntMat) (gen : ℕ) (r : FitResult) (i : ℕ) : ℝ := Real.sqrt (val norm gen r i i).re

noncomputable def normMat (norm : IntMat) (gen : ℕ) (r : FitResult) (n : ℕ) : Mat ℂ :=
  ⟨n + 1, n + 1, fun a b => if a < n ∧ b < n then (if a = b then 1 else val norm gen r a b / ((normVal norm gen r a * normVal norm gen r b : ℝ) : ℂ))
    else if a = n ∧ b = n then 1 else 0⟩

noncomputable def accMat (norm acc : IntMat) (gen : ℕ) (r : FitResult) (n : ℕ) (tot : ℝ) : Mat ℂ :=
  ⟨n + 1, n + 1, fun a b => if a < n ∧ b < n then val acc gen r a b / ((normVal norm gen r a * normVal norm gen r b : ℝ) : ℂ)
    else if a = n ∧ b = n then (tot : ℂ) else 0⟩

noncomputable def psList (norm : IntMat) (gen : ℕ) (r : FitResult) (n : ℕ) : List ℝ := (List.range n).map (normVal norm gen r) ++ [1]

/-- the arguments of `fill` for the data of a fit result with other integrals. -/
def argsWith (r : FitResult) (N A : Mat ℂ) (ps : List ℝ) : FillArgs :=
  { nmbEvents := r.nmbEvents
    normNmbEvents := r.normNmbEvents
    multibin := r.multibin
    logLikelihood := r.logLikelihood
    rank := r.rank
    nmbProdAmps := r.nmbProdAmps
    prodAmps := r.prodAmps
    prodAmpNames := r.prodAmpNames
    cov := some r.cov
    nmbCovIdx := r.nmbCovIdx
    covIdx := r.covIdx
    normIntegral := some N
    accNormIntegral := some A
    phaseSpaceIntegral := some ps
    converged := r.converged
    hasHessian := r.hasHessian }

theorem rescale_eq (ps : List ℝ) (n1 : ℕ) (s : Mat ℂ × Mat ℂ) :
    forPure n1 s (fun i s => forPure n1 s fun j s => rescaleAt ps i j s) =
      (⟨s.1.nRows, s.1.nCols, fun a b => if a < n1 ∧ b < n1 then (if a = b then 1 else s.1.entry a b / ((ps.getD a 0 * ps.getD b 0 : ℝ) : ℂ))
          else s.1.entry a b⟩,
       ⟨s.2.nRows, s.2.nCols, fun a b => if a < n1 ∧ b < n1 then s.2.entry a b / ((ps.getD a 0 * ps.getD b 0 : ℝ) : ℂ) else s.2.entry a b⟩) := by
  have h1 : ∀ i < n1, ∀ s : Mat ℂ × Mat ℂ, forPure n1 s (fun j s => rescaleAt ps i j s) =
      (forPure n1 s.1 (fun j M => setAt M i j ((fun i j z => if i = j then 1 else z / ((ps.getD i 0 * ps.getD j 0 : ℝ) : ℂ)) i j (M.entry i j))),
       forPure n1 s.2 (fun j M => setAt M i j ((fun i j z => z / ((ps.getD i 0 * ps.getD j 0 : ℝ) : ℂ)) i j (M.entry i j)))) := by
    intro i _ s
    refine Eq.trans ?_ (forPure_pair n1 s.1 s.2 _ _)
    apply forPure_congr
    intro j _ s
    unfold rescaleAt
    by_cases h : i = j
    · simp only [if_pos h]
    · simp only [if_neg h]
  rw [forPure_congr n1 s _ _ h1]
  refine (forPure_pair n1 s.1 s.2
    (fun i M => forPure n1 M (fun j M => setAt M i j ((fun i j z => if i = j then 1 else z / ((ps.getD i 0 * ps.getD j 0 : ℝ) : ℂ)) i j (M.entry i j))))
    (fun i M => forPure n1 M (fun j M => setAt M i j ((fun i j z => z / ((ps.getD i 0 * ps.getD j 0 : ℝ) : ℂ)) i j (M.entry i j))))).trans ?_
  exact congrArg₂ Prod.mk (forPure_all (fun i j z => if i = j then 1 else z / ((ps.getD i 0 * ps.getD j 0 : ℝ) : ℂ)) n1 n1 s.1)
    (forPure_all (fun i j z => z / ((ps.getD i 0 * ps.getD j 0 : ℝ) : ℂ)) n1 n1 s.2)

theorem addEntry_eq (norm acc : IntMat) (force : Bool) (r : FitResult) (waves : List Name) (hw : r.waveNames = waves ++ ["flat".toList])
    (hc : Covers norm acc waves) (hf : hasIntegrals r = true → force = true) :
    addEntry norm acc force r = .ok (some (FitResult.new.fillA (argsWith r (normMat norm norm.nmbEvents r waves.length)
      (accMat norm acc norm.nmbEvents r waves.length ((acc.nmbEvents : ℝ) / (norm.nmbEvents : ℝ))) (psList norm norm.nmbEvents r waves.length)),
      { acc with nmbEvents := norm.nmbEvents })) := by
  have hn : r.waveNames.length = waves.length + 1 := by rw [hw]; simp
  have hif : ¬ (hasIntegrals r && !force) = true := by
    cases h : hasIntegrals r
    · simp
    · simp [hf h]
  unfold addEntry
  rw [if_neg hif]
  dsimp only
  rw [hn, if_neg (by omega), Nat.add_sub_cancel, copyLoop_ok norm acc r waves hw hc, Outcome.ok_bind]
  dsimp only
  rw [phaseSpace_eq, rescale_eq]
  have hps : (List.range waves.length).map (fun i => Real.sqrt ((if i < waves.length ∧ i < waves.length then val norm norm.nmbEvents r i i
      else (zeros (waves.length + 1)).entry i i)).re) ++ [1] = psList norm norm.nmbEvents r waves.length := by
    unfold psList
    congr 1
    apply List.map_congr_left
    intro i hi
    have hi := List.mem_range.1 hi
    rw [if_pos ⟨hi, hi⟩]; rfl
  have hget : ∀ i < waves.length, (psList norm norm.nmbEvents r waves.length).getD i 0 = normVal norm norm.nmbEvents r i := by
    intro i hi
    unfold psList
    rw [List.getD_eq_getElem?_getD, List.getElem?_append_left (by simpa using hi)]
    simp [hi]
  rw [hps]
  have e1 : setAt (clearLast (waves.length + 1) ⟨(zeros (waves.length + 1)).nRows, (zeros (waves.length + 1)).nCols, fun a b =>
      if a < waves.length ∧ b < waves.length then (if a = b then 1 else (if a < waves.length ∧ b < waves.length then val norm norm.nmbEvents r a b
        else (zeros (waves.length + 1)).entry a b) / (((psList norm norm.nmbEvents r waves.length).getD a 0 *
          (psList norm norm.nmbEvents r waves.length).getD b 0 : ℝ) : ℂ))
        else (if a < waves.length ∧ b < waves.length then val norm norm.nmbEvents r a b else (zeros (waves.length + 1)).entry a b)⟩)
      waves.length waves.length 1 = normMat norm norm.nmbEvents r waves.length := by
    rw [clearLast_eq, setAt_eq]
    unfold normMat zeros
    dsimp only
    congr 1
    funext a b
    by_cases h1 : a < waves.length ∧ b < waves.length
    · rw [if_neg (by omega), if_neg (by omega), if_pos h1, if_pos h1, if_pos h1, hget a h1.1, hget b h1.2]
    · simp only [if_neg h1]
      by_cases h2 : a = waves.length ∧ b = waves.length
      · rw [if_pos h2, if_pos h2]
      · rw [if_neg h2, if_neg h2]; simp
  have e2 : setAt (clearLast (waves.length + 1) ⟨(zeros (waves.length + 1)).nRows, (zeros (waves.length + 1)).nCols, fun a b =>
      if a < waves.length ∧ b < waves.length then (if a < waves.length ∧ b < waves.length then val acc norm.nmbEvents r a b
        else (zeros (waves.length + 1)).entry a b) / (((psList norm norm.nmbEvents r waves.length).getD a 0 *
          (psList norm norm.nmbEvents r waves.length).getD b 0 : ℝ) : ℂ)
        else (if a < waves.length ∧ b < waves.length then val acc norm.nmbEvents r a b else (zeros (waves.length + 1)).entry a b)⟩)
      waves.length waves.length ((((acc.nmbEvents : ℝ) / (norm.nmbEvents : ℝ) : ℝ)) : ℂ) =
        accMat norm acc norm.nmbEvents r waves.length ((acc.nmbEvents : ℝ) / (norm.nmbEvents : ℝ)) := by
    rw [clearLast_eq, setAt_eq]
    unfold accMat zeros
    dsimp only
    congr 1
    funext a b
    by_cases h1 : a < waves.length ∧ b < waves.length
    · rw [if_neg (by omega), if_neg (by omega), if_pos h1, if_pos h1, if_pos h1, hget a h1.1, hget b h1.2]
    · simp only [if_neg h1]
      by_cases h2 : a = waves.length ∧ b = waves.length
      · rw [if_pos h2, if_pos h2]
      · rw [if_neg h2, if_neg h2]; simp
  rw [e1, e2]
  rfl

end Rpwa.FitInts
