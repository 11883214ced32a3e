import Verif.Spec.FitParameters
import Mathlib.Tactic.Linarith
import Mathlib.Data.List.Nodup
import Mathlib.Data.List.Induction
/-! Lemmas for C23. -/
namespace Rpwa.Lik

/-- components of one slot in parameter order. -/
def slotComps (s : Slot) : List Comp :=
  if s.2.2 < s.1 then [] else if s.2.2 = s.1 then [(s, true)] else [(s, true), (s, false)]

/-- components of a list of slots in parameter order. -/
def comps (l : List Slot) : List Comp := l.flatMap slotComps

theorem mem_slots (rank : ℕ) (nW : ℕ → ℕ) (s : Slot) : s ∈ slots rank nW ↔ s.1 < rank ∧ s.2.1 < 2 ∧ s.2.2 < nW s.2.1 := by
  obtain ⟨r, e, w⟩ := s
  simp only [slots, List.mem_flatMap, List.mem_range, List.mem_map, Prod.mk.injEq]
  constructor
  · rintro ⟨a, ha, b, hb, c, hc, rfl, rfl, rfl⟩; exact ⟨ha, hb, hc⟩
  · rintro ⟨ha, hb, hc⟩; exact ⟨r, ha, e, hb, w, hc, rfl, rfl, rfl⟩

theorem nodup_slots (rank : ℕ) (nW : ℕ → ℕ) : (slots rank nW).Nodup := by
  unfold slots
  rw [List.nodup_flatMap]
  refine ⟨fun r _ => ?_, ?_⟩
  · rw [List.nodup_flatMap]
    refine ⟨fun e _ => ?_, ?_⟩
    · exact List.nodup_range.map (fun a b h => by simpa using h)
    · refine List.nodup_range.imp ?_
      intro a b hab
      simp only [Function.onFun, List.disjoint_left, List.mem_map, List.mem_range]
      rintro s ⟨_, _, rfl⟩ ⟨_, _, h⟩
      simp at h; exact hab h.1.symm
  · refine List.nodup_range.imp ?_
    intro a b hab
    simp only [Function.onFun, List.disjoint_left, List.mem_map, List.mem_range, List.mem_flatMap]
    rintro s ⟨_, _, _, _, rfl⟩ ⟨_, _, _, _, h⟩
    simp at h; exact hab h.1.symm

theorem mem_slotComps (s : Slot) (c : Comp) :
    c ∈ slotComps s ↔ c.1 = s ∧ s.1 ≤ s.2.2 ∧ (c.2 = false → s.1 < s.2.2) := by
  obtain ⟨t, b⟩ := c
  unfold slotComps
  split
  · simp; intros; omega
  · split
    · cases b <;> simp <;> intros <;> omega
    · cases b <;> simp <;> intros <;> omega

theorem mem_comps (l : List Slot) (c : Comp) :
    c ∈ comps l ↔ c.1 ∈ l ∧ c.1.1 ≤ c.1.2.2 ∧ (c.2 = false → c.1.1 < c.1.2.2) := by
  simp only [comps, List.mem_flatMap, mem_slotComps]
  constructor
  · rintro ⟨s, hs, rfl, h⟩; exact ⟨hs, h⟩
  · rintro ⟨hs, h⟩; exact ⟨_, hs, rfl, h⟩

theorem mem_comps_slots (rank : ℕ) (nW : ℕ → ℕ) (c : Comp) : c ∈ comps (slots rank nW) ↔ Free rank nW c := by
  rw [mem_comps, mem_slots]; unfold Free
  constructor
  · rintro ⟨⟨a, b, d⟩, e, f⟩; exact ⟨a, b, d, e, f⟩
  · rintro ⟨a, b, d, e, f⟩; exact ⟨⟨a, b, d⟩, e, f⟩

theorem nodup_comps {l : List Slot} (h : l.Nodup) : (comps l).Nodup := by
  unfold comps
  rw [List.nodup_flatMap]
  refine ⟨fun s _ => ?_, ?_⟩
  · unfold slotComps; split
    · simp
    · split <;> simp
  · refine h.imp ?_
    intro a b hab
    simp only [Function.onFun, List.disjoint_left, mem_slotComps]
    rintro c ⟨rfl, _⟩ ⟨h, _⟩
    exact hab h

theorem comps_snoc (l : List Slot) (s : Slot) : comps (l ++ [s]) = comps l ++ slotComps s := by
  simp [comps]

/-- value of a parameter array at a component. -/
noncomputable def parAt (l : List Slot) (par : ℕ → ℝ) (c : Comp) : ℝ :=
  if c ∈ comps l then par ((comps l).idxOf c) else 0

theorem copyFrom_inv (par : ℕ → ℝ) (l : List Slot) (h : l.Nodup) :
    (l.foldl (copyFromStep par) (0, fun _ => 0)).1 = (comps l).length ∧
    ∀ s, (l.foldl (copyFromStep par) (0, fun _ => 0)).2 s = ⟨parAt l par (s, true), parAt l par (s, false)⟩ := by
  induction l using List.reverseRecOn with
  | nil => refine ⟨by simp [comps], fun s => ?_⟩; simp [parAt, comps]; rfl
  | append_singleton l s ih =>
    have hl : l.Nodup := (List.nodup_append.1 h).1
    have hs : s ∉ l := by
      intro hc
      have := (List.nodup_append.1 h).2.2 s hc s (by simp)
      exact this rfl
    obtain ⟨i1, i2⟩ := ih hl
    rw [List.foldl_append]
    simp only [List.foldl_cons, List.foldl_nil]
    generalize hst : l.foldl (copyFromStep par) (0, fun _ => 0) = st at *
    obtain ⟨k, out⟩ := st
    simp only at i1 i2
    have hnot : ∀ b, (s, b) ∉ comps l := fun b hc => hs ((mem_comps _ _).1 hc).1
    have other : ∀ t, t ≠ s → ∀ b, parAt (l ++ [s]) par (t, b) = parAt l par (t, b) := by
      intro t ht b
      unfold parAt
      rw [comps_snoc]
      have : (t, b) ∉ slotComps s := by
        rw [mem_slotComps]; simp [ht]
      by_cases hm : (t, b) ∈ comps l
      · rw [if_pos (List.mem_append_left _ hm), if_pos hm, List.idxOf_append_of_mem hm]
      · rw [if_neg (by simp [hm, this]), if_neg hm]
    obtain ⟨r, e, w⟩ := s
    unfold copyFromStep
    simp only
    by_cases h1 : w < r
    · rw [if_pos h1]
      refine ⟨by rw [comps_snoc]; simp [slotComps, h1, i1], fun t => ?_⟩
      by_cases ht : t = (r, e, w)
      · subst ht
        simp only [if_true]
        unfold parAt
        rw [comps_snoc]
        have : slotComps (r, e, w) = [] := by simp [slotComps, h1]
        rw [this, List.append_nil, if_neg (hnot _), if_neg (hnot _)]
        rfl
      · simp only [ht, if_false]
        rw [other t ht, other t ht, i2]
    · rw [if_neg h1]
      by_cases h2 : w = r
      · rw [if_pos h2]
        have hc : slotComps (r, e, w) = [((r, e, w), true)] := by simp [slotComps, h2]
        refine ⟨by rw [comps_snoc, hc]; simp [i1], fun t => ?_⟩
        by_cases ht : t = (r, e, w)
        · subst ht
          simp only [if_true]
          unfold parAt
          rw [comps_snoc, hc]
          rw [if_pos (by simp), if_neg (by simp [hnot]), List.idxOf_append_of_notMem (hnot _)]
          simp [i1]
        · simp only [ht, if_false]
          rw [other t ht, other t ht, i2]
      · rw [if_neg h2]
        have hc : slotComps (r, e, w) = [((r, e, w), true), ((r, e, w), false)] := by simp [slotComps, h1, h2]
        refine ⟨by rw [comps_snoc, hc]; simp [i1], fun t => ?_⟩
        by_cases ht : t = (r, e, w)
        · subst ht
          simp only [if_true]
          unfold parAt
          rw [comps_snoc, hc]
          rw [if_pos (by simp), if_pos (by simp), List.idxOf_append_of_notMem (hnot _),
            List.idxOf_append_of_notMem (hnot _)]
          simp [i1, List.idxOf_cons]
        · simp only [ht, if_false]
          rw [other t ht, other t ht, i2]

/-- parameter index of a component. -/
def idx (l : List Slot) (c : Comp) : Option ℕ := if c ∈ comps l then some ((comps l).idxOf c) else none

/-- parameter description of a component. -/
noncomputable def compPar (wl : WaveList) (m : ℝ) (c : Comp) : FitPar :=
  ⟨wl.name c.1.2.1 c.1.2.2, c.1.1, wl.threshold c.1.2.1 c.1.2.2,
    belowThreshold (wl.threshold c.1.2.1 c.1.2.2) m, c.2⟩

theorem idx_other (l : List Slot) (s t : Slot) (ht : t ≠ s) (b : Bool) : idx (l ++ [s]) (t, b) = idx l (t, b) := by
  unfold idx
  rw [comps_snoc]
  have : (t, b) ∉ slotComps s := by
    rw [mem_slotComps]; simp [ht]
  by_cases hm : (t, b) ∈ comps l
  · rw [if_pos (List.mem_append_left _ hm), if_pos hm, List.idxOf_append_of_mem hm]
  · rw [if_neg (by simp [hm, this]), if_neg hm]

theorem forSlots_snoc {σ : Type} (l : List Slot) (s : Slot) (f : σ → Slot → Outcome σ) (x : σ) :
    forSlots (l ++ [s]) x f = (forSlots l x f >>= fun y => f y s) := by
  unfold forSlots
  induction l generalizing x with
  | nil =>
    simp only [List.nil_append, List.foldlM_cons, List.foldlM_nil, Outcome.pure_eq, Outcome.ok_bind]
    cases f x s <;> rfl
  | cons a l ih =>
    simp only [List.cons_append, List.foldlM_cons]
    cases f x a with
    | ok y => simp only [Outcome.ok_bind]; exact ih y
    | terminate => rfl
    | ub => rfl

theorem build_inv (wl : WaveList) (m : ℝ) (n : ℕ) (l : List Slot) (h : l.Nodup) (hn : (comps l).length ≤ n) :
    ∃ d : ParData, forSlots l (0, (⟨n, List.replicate n FitPar.default, fun _ => (some 0, some 0), 0⟩ : ParData)) (buildStep wl m)
      = .ok ((comps l).length, d) ∧ d.nmbPars = n ∧
      d.params = (comps l).map (compPar wl m) ++ List.replicate (n - (comps l).length) FitPar.default ∧
      (∀ s ∈ l, d.map s = (idx l (s, true), idx l (s, false))) ∧
      d.nmbParsFixed = ((comps l).filter fun c => (compPar wl m c).fixed).length := by
  induction l using List.reverseRecOn with
  | nil => exact ⟨_, rfl, rfl, by simp [comps], by simp, by simp [comps]⟩
  | append_singleton l s ih =>
    have hl : l.Nodup := (List.nodup_append.1 h).1
    have hs : s ∉ l := by
      intro hc
      have := (List.nodup_append.1 h).2.2 s hc s (by simp)
      exact this rfl
    rw [comps_snoc] at hn
    have hn' : (comps l).length ≤ n := by rw [List.length_append] at hn; omega
    obtain ⟨d, e1, e2, e3, e4, e5⟩ := ih hl hn'
    have hnot : ∀ b, (s, b) ∉ comps l := fun b hc => hs ((mem_comps _ _).1 hc).1
    have hne : ∀ t ∈ l, t ≠ s := fun t ht he => hs (he ▸ ht)
    rw [forSlots_snoc, e1]
    obtain ⟨r, e, w⟩ := s
    have hset : ∀ (q : ℕ) (x : FitPar) (A : List FitPar), q > 0 →
        (A ++ List.replicate q FitPar.default).set A.length x = A ++ [x] ++ List.replicate (q - 1) FitPar.default := by
      intro q x A hq
      obtain ⟨q, rfl⟩ : ∃ p, q = p + 1 := ⟨q - 1, by omega⟩
      rw [List.set_append_right _ _ (by omega)]
      simp [List.replicate_succ]
    simp only [Outcome.ok_bind, buildStep, Outcome.pure_eq]
    by_cases h1 : w < r
    · rw [if_pos h1]
      have hc : slotComps (r, e, w) = [] := by simp [slotComps, h1]
      have hcl : comps (l ++ [(r, e, w)]) = comps l := by rw [comps_snoc, hc, List.append_nil]
      refine ⟨{ d with map := fun t => if t = (r, e, w) then (none, none) else d.map t },
        by rw [hcl], e2, by rw [hcl]; exact e3, ?_, by rw [hcl]; exact e5⟩
      intro t ht
      rcases List.mem_append.1 ht with ht | ht
      · rw [idx_other _ _ _ (hne t ht), idx_other _ _ _ (hne t ht), ← e4 t ht]
        simp only [if_neg (hne t ht)]
      · rw [List.mem_singleton] at ht; subst ht
        simp [idx, hcl, hnot]
    · rw [if_neg h1]
      have hidx : idx (l ++ [(r, e, w)]) ((r, e, w), true) = some (comps l).length := by
        unfold idx
        rw [comps_snoc, if_pos, List.idxOf_append_of_notMem (hnot _)]
        · by_cases h2 : w = r <;> simp [slotComps, h1, h2]
        · rw [List.mem_append, mem_slotComps]; right; simp; omega
      by_cases h2 : w = r
      · rw [if_pos h2]
        have hc : slotComps (r, e, w) = [((r, e, w), true)] := by simp [slotComps, h2]
        have hcl : comps (l ++ [(r, e, w)]) = comps l ++ [((r, e, w), true)] := by rw [comps_snoc, hc]
        rw [hc] at hn
        simp only [List.length_append, List.length_cons, List.length_nil] at hn
        unfold setPar
        rw [if_pos (by rw [e3]; simp; omega)]
        refine ⟨{ d with
            params := d.params.set (comps l).length ⟨wl.name e w, r, wl.threshold e w, belowThreshold (wl.threshold e w) m, true⟩
            nmbParsFixed := if belowThreshold (wl.threshold e w) m then d.nmbParsFixed + 1 else d.nmbParsFixed
            map := fun t => if t = (r, e, w) then (some (comps l).length, none) else d.map t },
          by rw [hcl]; simp only [Outcome.ok_bind, List.length_append, List.length_cons, List.length_nil, Nat.zero_add], e2, ?_, ?_, ?_⟩
        · simp only
          rw [e3]
          have := hset (n - (comps l).length) ⟨wl.name e w, r, wl.threshold e w,
            belowThreshold (wl.threshold e w) m, true⟩ ((comps l).map (compPar wl m)) (by omega)
          rw [List.length_map] at this
          rw [hcl]
          simp only [List.map_append, List.map_cons, List.map_nil, compPar, List.length_append, List.length_cons, List.length_nil]
          rw [← Nat.sub_sub]
          exact this
        · intro t ht
          rcases List.mem_append.1 ht with ht | ht
          · rw [idx_other _ _ _ (hne t ht), idx_other _ _ _ (hne t ht), ← e4 t ht]
            simp only [if_neg (hne t ht)]
          · rw [List.mem_singleton] at ht; subst ht
            rw [hidx]
            simp [idx, hcl, hnot]
        · simp only [hcl, List.filter_append, List.length_append, e5]
          cases hf : belowThreshold (wl.threshold e w) m <;> simp [compPar, hf]
      · rw [if_neg h2]
        have hc : slotComps (r, e, w) = [((r, e, w), true), ((r, e, w), false)] := by simp [slotComps, h1, h2]
        have hcl : comps (l ++ [(r, e, w)]) = comps l ++ [((r, e, w), true), ((r, e, w), false)] := by rw [comps_snoc, hc]
        rw [hc] at hn
        simp only [List.length_append, List.length_cons, List.length_nil] at hn
        unfold setPar
        rw [if_pos (by rw [e3]; simp; omega)]
        simp only [Outcome.ok_bind]
        rw [if_pos (by rw [List.length_set, e3]; simp; omega)]
        refine ⟨{ d with
            params := (d.params.set (comps l).length ⟨wl.name e w, r, wl.threshold e w, belowThreshold (wl.threshold e w) m, true⟩).set
              ((comps l).length + 1) ⟨wl.name e w, r, wl.threshold e w, belowThreshold (wl.threshold e w) m, false⟩
            nmbParsFixed := if belowThreshold (wl.threshold e w) m then d.nmbParsFixed + 2 else d.nmbParsFixed
            map := fun t => if t = (r, e, w) then (some (comps l).length, some ((comps l).length + 1)) else d.map t },
          by rw [hcl]; simp only [Outcome.ok_bind, List.length_append, List.length_cons, List.length_nil, Nat.zero_add], e2, ?_, ?_, ?_⟩
        · simp only
          rw [e3]
          have := hset (n - (comps l).length) ⟨wl.name e w, r, wl.threshold e w,
            belowThreshold (wl.threshold e w) m, true⟩ ((comps l).map (compPar wl m)) (by omega)
          rw [List.length_map] at this
          rw [this]
          have := hset (n - (comps l).length - 1) ⟨wl.name e w, r, wl.threshold e w,
            belowThreshold (wl.threshold e w) m, false⟩
            ((comps l).map (compPar wl m) ++ [⟨wl.name e w, r, wl.threshold e w,
            belowThreshold (wl.threshold e w) m, true⟩]) (by omega)
          rw [List.length_append, List.length_map] at this
          rw [hcl]
          simp only [List.map_append, List.map_cons, List.map_nil, compPar, List.length_append, List.length_cons, List.length_nil]
          rw [show n - ((comps l).length + (0 + 1 + 1)) = n - (comps l).length - 1 - 1 by omega]
          refine this.trans ?_
          simp [compPar]
        · intro t ht
          rcases List.mem_append.1 ht with ht | ht
          · rw [idx_other _ _ _ (hne t ht), idx_other _ _ _ (hne t ht), ← e4 t ht]
            simp only [if_neg (hne t ht)]
          · rw [List.mem_singleton] at ht; subst ht
            rw [hidx]
            simp only [if_true]
            unfold idx
            rw [hcl, if_pos (by simp), List.idxOf_append_of_notMem (hnot _)]
            simp [List.idxOf_cons]
        · simp only [hcl, List.filter_append, List.length_append, e5]
          cases hf : belowThreshold (wl.threshold e w) m <;> simp [compPar, hf]

theorem countPars_eq (rank : ℕ) (nW : ℕ → ℕ) : countPars rank nW = ((comps (slots rank nW)).length : ℤ) + 1 := by
  have inner : ∀ (r n e : ℕ), (((List.range n).map fun w => (r, e, w)).flatMap slotComps).length =
      (if n - r - 1 > 0 then 2 * (n - r - 1) else 0) + (if r < n then 1 else 0) := by
    intro r n e
    induction n with
    | zero => simp
    | succ n ih =>
      rw [List.range_succ, List.map_append, List.flatMap_append, List.length_append, ih]
      simp only [List.map_cons, List.map_nil, List.flatMap_cons, List.flatMap_nil, List.append_nil, slotComps]
      split_ifs <;> first | omega | (simp only [List.length_nil, List.length_cons] <;> omega)
  unfold countPars comps slots
  congr 1
  rw [List.flatMap_assoc]
  induction rank with
  | zero => simp
  | succ k ih =>
    rw [List.range_succ, List.map_append, List.sum_append, ih, List.flatMap_append, List.length_append]
    simp only [List.map_cons, List.map_nil, List.sum_cons, List.sum_nil, add_zero, List.flatMap_cons, List.flatMap_nil,
      List.append_nil]
    push_cast
    congr 1
    rw [List.flatMap_assoc]
    rw [show List.range 2 = [0, 1] from rfl]
    simp only [List.flatMap_cons, List.flatMap_nil, List.append_nil, List.length_append]
    rw [inner, inner]
    push_cast
    split_ifs <;> omega

theorem copyTo_inv (amps : Amps) (out : ℕ → ℝ) (map : Slot → Option ℕ × Option ℕ) (full : List Slot)
    (hmap : ∀ s ∈ full, map s = (idx full (s, true), idx full (s, false))) (hfull : full.Nodup)
    (l rest : List Slot) (h : full = l ++ rest) (i : ℕ) :
    l.foldl (copyToStep map amps) out i =
      (match (comps l)[i]? with
       | some c => part (amps c.1) c.2
       | none => out i) := by
  induction l using List.reverseRecOn generalizing rest with
  | nil => simp [comps]
  | append_singleton l s ih =>
    have hs : s ∉ l := by
      intro hc
      rw [h, List.append_assoc] at hfull
      have := (List.nodup_append.1 hfull).2.2 s hc s (by simp)
      exact this rfl
    have hnot : ∀ b, (s, b) ∉ comps l := fun b hc => hs ((mem_comps _ _).1 hc).1
    rw [List.foldl_append]
    simp only [List.foldl_cons, List.foldl_nil]
    have ih := ih ([s] ++ rest) (by rw [h, List.append_assoc])
    have hm := hmap s (by rw [h]; simp)
    have hfc : comps full = comps l ++ (slotComps s ++ comps rest) := by
      rw [h]; simp [comps]
    have hrest : ∀ b, (s, b) ∉ comps rest := by
      intro b hc
      have hr := ((mem_comps _ _).1 hc).1
      rw [h] at hfull
      exact (List.nodup_append.1 hfull).2.2 s (by simp) s hr rfl
    generalize hst : l.foldl (copyToStep map amps) out = o at *
    unfold copyToStep
    rw [hm, comps_snoc]
    obtain ⟨r, e, w⟩ := s
    by_cases h1 : w < r
    · have hc : slotComps (r, e, w) = [] := by simp [slotComps, h1]
      rw [hc] at hfc
      have i1 : ∀ b, idx full ((r, e, w), b) = none := by
        intro b
        unfold idx
        rw [hfc, if_neg (by simp [hnot, hrest])]
      rw [i1, i1, hc]
      simp only [List.append_nil]
      exact ih
    · by_cases h2 : w = r
      · have hc : slotComps (r, e, w) = [((r, e, w), true)] := by simp [slotComps, h2]
        rw [hc] at hfc
        have i1 : idx full ((r, e, w), true) = some (comps l).length := by
          unfold idx
          rw [hfc, if_pos (by simp), List.idxOf_append_of_notMem (hnot _)]
          simp
        have i2 : idx full ((r, e, w), false) = none := by
          unfold idx
          rw [hfc, if_neg (by simp [hnot, hrest])]
        rw [i1, i2, hc]
        simp only
        by_cases hi : i = (comps l).length
        · subst hi; simp [part]
        · rw [if_neg hi, ih]
          by_cases hlt : i < (comps l).length
          · rw [List.getElem?_append_left hlt]
          · rw [List.getElem?_eq_none (by omega), List.getElem?_eq_none (by simp; omega)]
      · have hc : slotComps (r, e, w) = [((r, e, w), true), ((r, e, w), false)] := by simp [slotComps, h1, h2]
        rw [hc] at hfc
        have i1 : idx full ((r, e, w), true) = some (comps l).length := by
          unfold idx
          rw [hfc, if_pos (by simp), List.idxOf_append_of_notMem (hnot _)]
          simp
        have i2 : idx full ((r, e, w), false) = some ((comps l).length + 1) := by
          unfold idx
          rw [hfc, if_pos (by simp), List.idxOf_append_of_notMem (hnot _)]
          simp [List.idxOf_cons]
        rw [i1, i2, hc]
        simp only
        by_cases hi : i = (comps l).length
        · subst hi; simp [part]
        · by_cases hi' : i = (comps l).length + 1
          · subst hi'
            rw [if_pos rfl, List.getElem?_append_right (by omega)]
            simp [part]
          · rw [if_neg hi', if_neg hi, ih]
            by_cases hlt : i < (comps l).length
            · rw [List.getElem?_append_left hlt]
            · rw [List.getElem?_eq_none (by omega), List.getElem?_eq_none (by simp; omega)]

end Rpwa.Lik
