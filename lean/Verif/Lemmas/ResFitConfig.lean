import Verif.Model.ResFitConfig
import Verif.Props.PickersInit
import Verif.Lemmas.ResFitRead
import Verif.Lemmas.ResFitMaps
import Mathlib.Data.List.GetD
import Mathlib.Data.List.Forall2

/-! Lemmas for C77: reading what was written, part by part. -/

namespace Rpwa.ResCfg

open ResFit (Name Params Input Channel Maps Component Shape ShapeCfg Formula Fsmd Model)
open Pick (bind_ok_iff mapM_ok_iff)

/-! ### access to a map -/

theorem mand_map {α : Type} {l : List (Name × V)} {k : Name} {w : V} (f : V → Outcome α)
    (h : l.lookup k = some w) : mand (.map l) k f = f w := by
  unfold mand V.sub; dsimp only; rw [h]

theorem opt_some {α : Type} {l : List (Name × V)} {k : Name} {w : V} (d : α) (f : V → Outcome α)
    (h : l.lookup k = some w) : opt (.map l) k d f = f w := by
  unfold opt V.sub; dsimp only; rw [h]

theorem opt_none {α : Type} {l : List (Name × V)} {k : Name} (d : α) (f : V → Outcome α)
    (h : l.lookup k = none) : opt (.map l) k d f = .ok d := by
  unfold opt V.sub; dsimp only; rw [h]

theorem real_wNum {C : Codec} (hC : C.Faithful) (x : ℝ) : real C (wNum C x) = .ok x := by
  unfold real num? wNum
  dsimp only
  rw [hC.fin]

theorem int_fmt {C : Codec} (hC : C.Faithful) (x : ℤ) : int C (.scalar (C.fmtI x)) = .ok x := by
  unfold int need; dsimp only; rw [hC.int]

theorem bool_fmt {C : Codec} (hC : C.Faithful) (x : Bool) : bool C (.scalar (C.fmtB x)) = .ok x := by
  unfold bool need; dsimp only; rw [hC.bool]

theorem pair_wPair {C : Codec} (hC : C.Faithful) (x y : ℝ) : pair C (wPair C x y) = .ok (x, y) := by
  unfold pair wPair seqOf
  rw [Outcome.ok_bind]
  show ((real C (wNum C x)) >>= fun x => real C (wNum C y) >>= fun y => Outcome.ok (x, y)) = _
  rw [real_wNum hC, Outcome.ok_bind, real_wNum hC]
  rfl

theorem mapM_str (l : List Name) : (l.map V.text).mapM str = .ok l := by
  induction l with
  | nil => rfl
  | cons a l ih => rw [List.map_cons, List.mapM_cons, ih]; rfl

/-! ### quality and release order -/

theorem qualNum_fmt {C : Codec} (hC : C.Faithful) (x : Num) : qualNum C (.scalar (C.fmtN x)) = .ok x := by
  unfold qualNum num?
  dsimp only
  cases x with
  | fin x => rw [hC.fin]
  | nan =>
    rcases hC.nan with h | ⟨h, h'⟩
    · rw [h]
    · rw [h, h']
      rfl
  | inf =>
    rcases hC.inf with h | ⟨h, h'⟩
    · rw [h]
    · rw [h, h']
      rfl
  | ninf => rw [hC.ninf]

theorem quality_fold {C : Codec} (hC : C.Faithful) : ∀ (q acc : List (Name × Num)),
    ((acc ++ q).map (·.1)).Nodup →
    (q.map fun e => (e.1, V.scalar (C.fmtN e.2))).foldlM (fun (acc : List (Name × Num)) (e : Name × V) => do
        let x ← qualNum C e.2
        if acc.any (fun a => a.1 = e.1) then .terminate else .ok (acc ++ [(e.1, x)])) acc
      = Outcome.ok (acc ++ q)
  | [], acc, _ => by rw [List.append_nil]; rfl
  | e :: q, acc, h => by
    have hx : ¬ (acc.any fun a => decide (a.1 = e.1)) = true := by
      rw [List.any_eq_true]
      rintro ⟨a, ha, h'⟩
      have h' := of_decide_eq_true h'
      rw [List.map_append, List.map_cons, List.nodup_append] at h
      exact h.2.2 _ (List.mem_map.mpr ⟨a, ha, rfl⟩) _ List.mem_cons_self h'
    rw [List.map_cons, List.foldlM_cons]
    dsimp only
    rw [qualNum_fmt hC, Outcome.ok_bind, if_neg hx, Outcome.ok_bind,
      quality_fold hC q (acc ++ [e]) (by rw [List.append_assoc]; exact h), List.append_assoc]
    rfl

theorem readQuality_ok {C : Codec} (hC : C.Faithful) {l : List (Name × V)} {q : List (Name × Num)}
    (hq : (q.map (·.1)).Nodup)
    (h : l.lookup kQuality = some (.map (q.map fun e => (e.1, .scalar (C.fmtN e.2))))) :
    readQuality C (.map l) = .ok q := by
  unfold readQuality
  rw [opt_some _ _ h]
  exact quality_fold hC q [] hq

theorem readFree_ok {l : List (Name × V)} {free : List Name}
    (h : l.lookup kFree = if free.length > 0 then some (.seq (free.map .text)) else none) :
    readFree (.map l) = .ok free := by
  unfold readFree
  split at h
  · rename_i hl
    rw [opt_some _ _ h]
    unfold seqOf
    rw [Outcome.ok_bind, if_neg (by rw [List.length_map]; omega), mapM_str]
  · rename_i hl
    rw [opt_none _ _ h]
    cases free with
    | nil => rfl
    | cons a l => exact absurd (Nat.succ_pos _) hl

/-! ### waves and bins -/

/-- limits as the reader sees them: negative ones are -1 -/
noncomputable def normWave (w : WaveC) : WaveC :=
  ⟨w.name, if w.lower ≥ 0 then w.lower else -1, if w.upper ≥ 0 then w.upper else -1⟩

/-- a bin with the limits of its waves as the reader sees them -/
noncomputable def normBin (b : BinC) : BinC := { b with waves := b.waves.map normWave }

theorem readWave_write {C : Codec} (hC : C.Faithful) (acc : List WaveC) (w : WaveC)
    (h : ∀ a ∈ acc, a.name ≠ w.name) :
    readWave C acc (writeWave C w) = .ok (acc ++ [normWave w]) := by
  have hx : ¬ (acc.any fun a => decide (a.name = w.name)) = true := by
    rw [List.any_eq_true]
    rintro ⟨a, ha, h'⟩
    exact h a ha (of_decide_eq_true h')
  unfold readWave writeWave normWave
  by_cases h1 : w.lower ≥ 0 <;> by_cases h2 : w.upper ≥ 0
  · rw [if_pos h1, if_pos h2, mand_map (w := .text w.name) _ rfl]
    show (Outcome.ok w.name >>= _) = _
    rw [Outcome.ok_bind, if_neg hx, opt_some (w := wNum C w.lower) _ _ rfl, real_wNum hC,
      Outcome.ok_bind, opt_some (w := wNum C w.upper) _ _ rfl, real_wNum hC, Outcome.ok_bind]
    rw [if_pos h1, if_pos h2]
  · rw [if_pos h1, if_neg h2, mand_map (w := .text w.name) _ rfl]
    show (Outcome.ok w.name >>= _) = _
    rw [Outcome.ok_bind, if_neg hx, opt_some (w := wNum C w.lower) _ _ rfl, real_wNum hC,
      Outcome.ok_bind, opt_none _ _ rfl, Outcome.ok_bind]
    rw [if_pos h1, if_neg h2]
  · rw [if_neg h1, if_pos h2, mand_map (w := .text w.name) _ rfl]
    show (Outcome.ok w.name >>= _) = _
    rw [Outcome.ok_bind, if_neg hx, opt_none _ _ rfl,
      Outcome.ok_bind, opt_some (w := wNum C w.upper) _ _ rfl, real_wNum hC, Outcome.ok_bind]
    rw [if_neg h1, if_pos h2]
  · rw [if_neg h1, if_neg h2, mand_map (w := .text w.name) _ rfl]
    show (Outcome.ok w.name >>= _) = _
    rw [Outcome.ok_bind, if_neg hx, opt_none _ _ rfl,
      Outcome.ok_bind, opt_none _ _ rfl, Outcome.ok_bind]
    rw [if_neg h1, if_neg h2]

theorem readWaves_write {C : Codec} (hC : C.Faithful) : ∀ (ws acc : List WaveC),
    ((acc ++ ws).map (·.name)).Nodup →
    (ws.map (writeWave C)).foldlM (readWave C) acc = Outcome.ok (acc ++ ws.map normWave)
  | [], acc, _ => by rw [List.map_nil, List.map_nil, List.append_nil]; rfl
  | w :: ws, acc, h => by
    rw [List.map_cons, List.foldlM_cons, readWave_write hC acc w, Outcome.ok_bind,
      readWaves_write hC ws (acc ++ [normWave w]), List.append_assoc]
    · rfl
    · rw [List.append_assoc]
      simpa [normWave] using h
    · intro a ha e
      rw [List.map_append, List.map_cons, List.nodup_append] at h
      exact h.2.2 _ (List.mem_map.mpr ⟨a, ha, rfl⟩) _ List.mem_cons_self e

/-- the loaded map of a bin -/
noncomputable def binV (C : Codec) (b : BinC) : V :=
  .map ([(kName, .text b.file), (kTMean, wNum C b.tMean)]
    ++ (if b.rescale ≠ 1 then [(kRescale, wNum C b.rescale)] else [])
    ++ (if b.sys.length > 0 then [(kSys, .seq (b.sys.map .text))] else [])
    ++ [(kWaves, .seq (b.waves.map (writeWave C)))])

theorem readBin_binV {C : Codec} (hC : C.Faithful) (b : BinC) (h : (b.waves.map (·.name)).Nodup) :
    readBin C (binV C b) = .ok (normBin b) := by
  have hsys : ∀ l : List (Name × V), (l.lookup kSys = if b.sys.length > 0 then
      some (.seq (b.sys.map .text)) else none) →
      opt (.map l) kSys [] (fun w => do (← seqOf w).mapM str) = Outcome.ok b.sys := by
    intro l hl
    split at hl
    · rw [opt_some _ _ hl]
      exact mapM_str b.sys
    · rename_i h0
      rw [opt_none _ _ hl]
      cases hs : b.sys with
      | nil => rfl
      | cons a l => exact absurd (by rw [hs]; exact Nat.succ_pos _) h0
  have hre : ∀ l : List (Name × V), (l.lookup kRescale = if b.rescale ≠ 1 then
      some (wNum C b.rescale) else none) → opt (.map l) kRescale 1 (real C) = .ok b.rescale := by
    intro l hl
    split at hl
    · rw [opt_some _ _ hl, real_wNum hC]
    · rename_i h0
      rw [opt_none _ _ hl, not_not.mp h0]
  have hw := readWaves_write hC b.waves [] h
  rw [List.nil_append] at hw
  unfold readBin binV normBin
  rw [mand_map (w := .text b.file) _ rfl]
  show (Outcome.ok b.file >>= _) = _
  rw [Outcome.ok_bind, mand_map (w := wNum C b.tMean) _ rfl, real_wNum hC, Outcome.ok_bind]
  rw [mand_map (w := .seq (b.waves.map (writeWave C)))
    _ (by split_ifs <;> rfl)]
  show (Outcome.ok (b.waves.map (writeWave C)) >>= _) = _
  rw [Outcome.ok_bind, hw, Outcome.ok_bind, hre _ (by split_ifs <;> rfl), Outcome.ok_bind,
    hsys _ (by split_ifs <;> rfl), Outcome.ok_bind]

/-! ### shared entries -/

theorem firstSame_le {α : Type} (same : α → α → Bool) (l : List α) (i : ℕ) (x : α) :
    firstSame same l i x ≤ i := by
  unfold firstSame
  cases h : (List.range i).find? _ with
  | none => exact Nat.le_refl _
  | some j => exact Nat.le_of_lt (List.mem_range.mp (List.mem_of_find?_eq_some h))

/-- anchors that are known before entry `i` is loaded -/
def Known {α : Type} (pref : Name) (same : α → α → Bool) (f : α → V) (l : List α) (i : ℕ) (env : Env) :
    Prop :=
  ∀ j x, j < i → l[j]? = some x → firstSame same l j x = j → env.lookup (pref, j) = some (f x)

theorem load_shareDoc {α : Type} {pref : Name} {same : α → α → Bool} {f : α → V} {l : List α}
    (hsame : ∀ x y, same x y = true → (∀ z, same x z = same y z) ∧ f x = f y) {i : ℕ} {x : α} (hx : l[i]? = some x) {env : Env}
    (hk : Known pref same f l i env) :
    ∃ env', load env (shareDoc pref same f l i x) = some (f x, env') ∧
      Known pref same f l (i + 1) env' := by
  unfold shareDoc
  dsimp only
  by_cases h : firstSame same l i x = i
  · rw [if_pos h, load]
    refine ⟨_, rfl, ?_⟩
    intro j y hj hy he
    rw [List.lookup_cons]
    by_cases hji : j = i
    · subst hji
      rw [hx] at hy
      cases hy
      rw [beq_self_eq_true]
    · have : ((pref, j) == (pref, i)) = false := by
        rw [beq_eq_false_iff_ne]
        intro e
        exact hji (Prod.mk.inj e).2
      rw [this]
      exact hk j y (by omega) hy he
  · rw [if_neg h, load]
    obtain ⟨a, ha⟩ : ∃ a, (List.range i).find? (isSameAt same l x) = some a := by
      cases hf : (List.range i).find? (isSameAt same l x) with
      | some a => exact ⟨a, rfl⟩
      | none =>
        exfalso
        apply h
        unfold firstSame
        rw [hf]
        rfl
    have hfa : firstSame same l i x = a := by unfold firstSame; rw [ha]; rfl
    have hp := List.find?_some ha
    have hlt := List.mem_range.mp (List.mem_of_find?_eq_some ha)
    unfold isSameAt at hp
    cases hy : l[a]? with
    | none => rw [hy] at hp; cases hp
    | some y =>
      rw [hy] at hp
      replace hp : same x y = true := hp
      obtain ⟨hz, hfe⟩ := hsame x y hp
      have hfirst : firstSame same l a y = a := by
        have hmin := List.find?_range_eq_some.mp ha
        unfold firstSame
        rw [List.find?_eq_none.mpr]
        · rfl
        · intro j hj
          have := hmin.2.2 j (List.mem_range.mp hj)
          unfold isSameAt at this ⊢
          cases hw : l[j]? with
          | none => simp
          | some w =>
            rw [hw] at this
            rw [Option.map_some, Option.getD_some, ← hz w]
            simpa using this
      rw [hfa, hk a y hlt hy hfirst, ← hfe]
      refine ⟨env, rfl, ?_⟩
      intro j z hj hz he
      by_cases hji : j = i
      · subst hji
        rw [hx] at hz
        cases hz
        exact absurd he h
      · exact hk j z (by omega) hz he

theorem known_zero {α : Type} (pref : Name) (same : α → α → Bool) (f : α → V) (l : List α) (env : Env) :
    Known pref same f l 0 env := fun _ _ h => absurd h (Nat.not_lt_zero _)

/-- loading a sequence of documents that share entries -/
theorem loadSeq_share {α : Type} {pref : Name} {same : α → α → Bool} {f : α → V} {l : List α}
    (d : ℕ → α → Doc) (g : α → V)
    (hd : ∀ i x env, l[i]? = some x → Known pref same f l i env →
      ∃ env', load env (d i x) = some (g x, env') ∧ Known pref same f l (i + 1) env') (env : Env) :
    ∃ env', loadSeq env (l.zipIdx.map fun x => d x.2 x.1) = some (l.map g, env') := by
  have main : ∀ (l' : List α) (k : ℕ) (env : Env), (∀ i, l'[i]? = l[k + i]?) →
      Known pref same f l k env →
      ∃ env', loadSeq env ((l'.zipIdx k).map fun x => d x.2 x.1) = some (l'.map g, env') := by
    intro l'
    induction l' with
    | nil => intro k env _ _; exact ⟨env, by rw [List.zipIdx_nil, List.map_nil, loadSeq, List.map_nil]⟩
    | cons x l' ih =>
      intro k env hl hk
      obtain ⟨env1, e1, hk1⟩ := hd k x env (by have := hl 0; simpa using this.symm) hk
      obtain ⟨env2, e2⟩ := ih (k + 1) env1 (fun i => by
        have := hl (i + 1)
        rw [List.getElem?_cons_succ] at this
        rw [this]
        congr 1
        omega) hk1
      refine ⟨env2, ?_⟩
      rw [List.zipIdx_cons, List.map_cons, loadSeq, e1, Option.bind_some, e2]
      rfl
  exact main l 0 env (fun i => by rw [Nat.zero_add]) (known_zero _ _ _ _ _)

theorem waves_ext {α : Type} (a b : List α) (hl : a.length = b.length)
    (h : ∀ p ∈ a.zip b, p.1 = p.2) : a = b := by
  induction a generalizing b with
  | nil => cases b with
    | nil => rfl
    | cons _ _ => cases hl
  | cons x a ih =>
    cases b with
    | nil => cases hl
    | cons y b =>
      rw [List.zip_cons_cons, List.forall_mem_cons] at h
      rw [show x = y from h.1, ih b (by simpa using hl) h.2]

theorem sameWaves_iff (a b : BinC) : sameWaves a b = true ↔ a.waves = b.waves := by
  unfold sameWaves
  rw [Bool.and_eq_true, decide_eq_true_eq, List.all_eq_true]
  constructor
  · rintro ⟨hl, h⟩
    refine waves_ext _ _ hl fun p hp => ?_
    have := h p hp
    rw [Bool.and_eq_true, decide_eq_true_eq, decide_eq_true_eq] at this
    obtain ⟨h1, h2, h3⟩ := this
    rcases p with ⟨⟨n, lo, up⟩, ⟨n', lo', up'⟩⟩
    dsimp only at h1 h2 h3
    rw [h1, h2, h3]
  · intro h
    rw [h]
    refine ⟨rfl, fun p hp => ?_⟩
    obtain ⟨i, hi, e⟩ := List.getElem_of_mem hp
    rw [List.getElem_zip] at e
    rw [← e]
    simp

end Rpwa.ResCfg
