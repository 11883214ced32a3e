import Verif.Model.MultiBin
import Mathlib.Order.Lattice
import Mathlib.Data.List.Lex
import Mathlib.Tactic.Linarith
import Mathlib.Tactic.NormNum.Ineq
import Mathlib.Tactic.FieldSimp
import Verif.Lemmas.WaveName
import Mathlib.Data.Rat.Encodable
import Mathlib.Logic.Denumerable
/-!
# Bins of the analysis (C40) -/
namespace Rpwa.MultiBin

/-! ### specification -/

/-- all values of the event are in the half-open ranges. -/
def Holds (b : Boundaries) (x : String → ℚ) : Prop := ∀ e ∈ b, e.2.1 ≤ x e.1 ∧ x e.1 < e.2.2

/-- the same for closed ranges. -/
def HoldsClosed (b : Boundaries) (x : String → ℚ) : Prop := ∀ e ∈ b, e.2.1 ≤ x e.1 ∧ x e.1 ≤ e.2.2

/-- every range of the bin contains a value. -/
def Nonempty (b : Boundaries) : Prop := ∀ e ∈ b, e.2.1 < e.2.2

/-- the middle of the ranges in the order of the names of the variables. -/
def centers (b : Boundaries) : List ℚ := b.map fun e => (e.2.1 + e.2.2) / 2

/-! ### lemmas -/

theorem wf_two (k l : String) (r o : ℚ × ℚ) (h : k.toList < l.toList) : WF [(k, r), (l, o)] := by
  have : k < l := String.lt_iff_toList_lt.2 h
  exact List.Pairwise.cons (by simpa using this) (List.pairwise_singleton _ _)

theorem WF.nodup {b : Boundaries} (h : WF b) : (b.map (·.1)).Nodup := List.Pairwise.imp (fun h => ne_of_lt h) h

theorem lookup_of_mem {β : Type} {b : List (String × β)} (h : (b.map (·.1)).Nodup) {k : String} {r : β} (hm : (k, r) ∈ b) : b.lookup k = some r := by
  induction b with
  | nil => simp at hm
  | cons e b ih =>
    obtain ⟨k', r'⟩ := e
    rw [List.map_cons, List.nodup_cons] at h
    rcases List.mem_cons.1 hm with he | hm'
    · cases he; simp [List.lookup_cons]
    · have hne : k ≠ k' := fun hk => h.1 (hk ▸ List.mem_map_of_mem (f := (·.1)) hm')
      have hb : (k == k') = false := by simpa using hne
      rw [List.lookup_cons, hb]
      exact ih h.2 hm'

theorem mem_of_lookup {β : Type} {b : List (String × β)} {k : String} {r : β} (h : b.lookup k = some r) : (k, r) ∈ b := by
  induction b with
  | nil => simp at h
  | cons e b ih =>
    obtain ⟨k', r'⟩ := e
    rw [List.lookup_cons] at h
    by_cases hk : k = k'
    · subst hk
      simp only [beq_self_eq_true, Option.some.injEq] at h
      subst h
      exact List.mem_cons_self
    · have hb : (k == k') = false := by simpa using hk
      rw [hb] at h
      exact List.mem_cons_of_mem _ (ih h)

theorem lookup_isSome {β : Type} {b : List (String × β)} {k : String} (h : k ∈ b.map (·.1)) : ∃ r, b.lookup k = some r := by
  induction b with
  | nil => simp at h
  | cons e b ih =>
    obtain ⟨k', r'⟩ := e
    rw [List.lookup_cons]
    by_cases hk : k = k'
    · subst hk; exact ⟨r', by simp⟩
    · have hb : (k == k') = false := by simpa using hk
      rw [hb]
      rw [List.map_cons, List.mem_cons] at h
      rcases h with h | h
      · exact absurd h hk
      · exact ih h

theorem ltLoop_iff (a b : Boundaries) (hl : a.length = b.length) : ltLoop a b = true ↔ centers a < centers b := by
  induction a generalizing b with
  | nil =>
    cases b with
    | nil => simp [ltLoop, centers]
    | cons _ _ => simp at hl
  | cons e a ih =>
    cases b with
    | nil => simp at hl
    | cons f b =>
      obtain ⟨k, r⟩ := e
      obtain ⟨k', o⟩ := f
      have hl' : a.length = b.length := by simpa using hl
      simp only [ltLoop, centers, List.map_cons, List.cons_lt_cons_iff]
      split
      · rename_i h
        constructor
        · intro hf; simp at hf
        · rintro (h' | ⟨h', -⟩)
          · exact absurd h' (not_lt.2 (le_of_lt h))
          · exact absurd h' (ne_of_gt h)
      · rename_i h
        split
        · rename_i h'
          exact ⟨fun _ => Or.inl h', fun _ => rfl⟩
        · rename_i h'
          have he : (r.1 + r.2) / 2 = (o.1 + o.2) / 2 := le_antisymm (not_lt.1 h) (not_lt.1 h')
          rw [ih b hl']
          exact ⟨fun x => Or.inr ⟨he, x⟩, fun x => x.elim (fun y => absurd y h') (fun y => y.2)⟩

theorem keys_length {a b : Boundaries} (h : keys a = keys b) : a.length = b.length := by
  have := congrArg List.length h
  simpa [keys] using this

/-! ### C40: order -/

/-- **C40** the order is the lexicographic order of the centres; bins with other variables are not comparable. -/
theorem lt_iff (a b : Boundaries) : lt a b = true ↔ keys a = keys b ∧ centers a < centers b := by
  unfold lt
  by_cases h : keys a = keys b
  · rw [if_neg (not_not.2 h), ltLoop_iff a b (keys_length h)]
    exact ⟨fun x => ⟨h, x⟩, fun x => x.2⟩
  · rw [if_pos h]
    exact ⟨fun x => by simp at x, fun x => absurd x.1 h⟩

/-- **C40** no bin is before itself. -/
theorem lt_irrefl' (a : Boundaries) : lt a a = false := by
  rw [← Bool.not_eq_true, lt_iff]
  exact fun h => lt_irrefl _ h.2

/-- **C40** -/
theorem lt_trans' (a b c : Boundaries) (h1 : lt a b = true) (h2 : lt b c = true) : lt a c = true := by
  rw [lt_iff] at *
  exact ⟨h1.1.trans h2.1, lt_trans h1.2 h2.2⟩

theorem lt_asymm' (a b : Boundaries) (h1 : lt a b = true) : lt b a = false := by
  rw [← Bool.not_eq_true]
  intro h2
  have := lt_trans' _ _ _ h1 h2
  rw [lt_irrefl'] at this
  simp at this

/-- **C40** bins in the same variables with different centres are ordered one way or the other. -/
theorem lt_total (a b : Boundaries) (hk : keys a = keys b) (hc : centers a ≠ centers b) : lt a b = true ∨ lt b a = true := by
  rw [lt_iff, lt_iff]
  rcases lt_trichotomy (centers a) (centers b) with h | h | h
  · exact Or.inl ⟨hk, h⟩
  · exact absurd h hc
  · exact Or.inr ⟨hk.symm, h⟩

theorem eq_iff (a b : Boundaries) : eq a b = true ↔ a = b := by simp [eq]

theorem ne_iff (a b : Boundaries) : ne a b = true ↔ a ≠ b := by simp [ne, eq]

theorem le_iff (a b : Boundaries) : le a b = true ↔ lt a b = true ∨ a = b := by simp [le, eq]

/-- **C40** `<=` is antisymmetric: -/
theorem le_antisymm' (a b : Boundaries) (h1 : le a b = true) (h2 : le b a = true) : a = b := by
  rw [le_iff] at *
  rcases h1 with h1 | h1
  · rcases h2 with h2 | h2
    · rw [lt_asymm' _ _ h1] at h2; simp at h2
    · exact h2.symm
  · exact h1

/-- **C40** and transitive. -/
theorem le_trans' (a b c : Boundaries) (h1 : le a b = true) (h2 : le b c = true) : le a c = true := by
  rw [le_iff] at *
  rcases h1 with h1 | rfl
  · rcases h2 with h2 | rfl
    · exact Or.inl (lt_trans' _ _ _ h1 h2)
    · exact Or.inl h1
  · exact h2

/-- **C40** for bins which are ordered or equal, all six operators agree with each other.
Missing: bins which are neither (`gt_both_ways`). -/
theorem operators_consistent_partial (a b : Boundaries) (h : lt a b = true ∨ lt b a = true ∨ a = b) :
    (gt a b = lt b a) ∧ (ge a b = le b a) ∧ (le a b = !lt b a) ∧ (ne a b = (lt a b || lt b a)) ∧ (eq a b = (le a b && ge a b)) := by
  rcases h with h | h | rfl
  · have h' := lt_asymm' _ _ h
    have hne : a ≠ b := by rintro rfl; rw [lt_irrefl'] at h; simp at h
    simp [gt, ge, le, ne, eq, h, h', hne, hne.symm]
  · have h' := lt_asymm' _ _ h
    have hne : a ≠ b := by rintro rfl; rw [lt_irrefl'] at h; simp at h
    simp [gt, ge, le, ne, eq, h, h', hne, hne.symm]
  · simp [gt, ge, le, ne, eq, lt_irrefl']

/-- **C40** disagreement: for bins with the same centre, or with other variables, both `a > b` and `b > a`, and `a >= b` without `b <= a`. -/
theorem gt_both_ways : ∃ a b : Boundaries, WF a ∧ WF b ∧ keys a = keys b ∧ gt a b = true ∧ gt b a = true ∧ ge a b = true ∧ le b a = false :=
  ⟨[("mass", (0, 3))], [("mass", (1, 2))], by simp [WF], by simp [WF], rfl, by decide +kernel, by decide +kernel, by decide +kernel, by decide +kernel⟩

theorem gt_other_variables (a b : Boundaries) (h : keys a ≠ keys b) : gt a b = true ∧ gt b a = true := by
  have hne : a ≠ b := fun e => h (by rw [e])
  simp [gt, le, lt, eq, h, h.symm, hne, hne.symm]

theorem center_of_index {a b : Boundaries} (hk : keys a = keys b) (hc : centers a = centers b) :
    ∀ p ∈ a.zip b, p.1.1 = p.2.1 ∧ (p.1.2.1 + p.1.2.2) / 2 = (p.2.2.1 + p.2.2.2) / 2 := by
  induction a generalizing b with
  | nil => simp
  | cons e a ih =>
    cases b with
    | nil => simp
    | cons f b =>
      simp only [keys, List.map_cons, List.cons.injEq] at hk
      simp only [centers, List.map_cons, List.cons.injEq] at hc
      intro p hp
      rw [List.zip_cons_cons, List.mem_cons] at hp
      rcases hp with rfl | hp
      · exact ⟨hk.1, hc.1⟩
      · exact ih hk.2 hc.2 p hp

/-! ### events in bins -/

/-- pairs of ranges of the same variable. -/
theorem zip_mem {a b : Boundaries} (hk : keys a = keys b) : ∀ e ∈ a, ∃ f ∈ b, (e, f) ∈ a.zip b := by
  induction a generalizing b with
  | nil => simp
  | cons e a ih =>
    cases b with
    | nil => simp [keys] at hk
    | cons f b =>
      simp only [keys, List.map_cons, List.cons.injEq] at hk
      intro x hx
      rcases List.mem_cons.1 hx with rfl | hx
      · exact ⟨f, List.mem_cons_self, by simp⟩
      · obtain ⟨g, hg, h⟩ := ih hk.2 x hx
        exact ⟨g, List.mem_cons_of_mem _ hg, by rw [List.zip_cons_cons]; exact List.mem_cons_of_mem _ h⟩

theorem zip_mem' {a b : Boundaries} (hk : keys a = keys b) : ∀ f ∈ b, ∃ e ∈ a, (e, f) ∈ a.zip b := by
  induction a generalizing b with
  | nil => cases b with
    | nil => simp
    | cons _ _ => simp [keys] at hk
  | cons e a ih =>
    cases b with
    | nil => simp
    | cons f b =>
      simp only [keys, List.map_cons, List.cons.injEq] at hk
      intro x hx
      rcases List.mem_cons.1 hx with rfl | hx
      · exact ⟨e, List.mem_cons_self, by simp⟩
      · obtain ⟨g, hg, h⟩ := ih hk.2 x hx
        exact ⟨g, List.mem_cons_of_mem _ hg, by rw [List.zip_cons_cons]; exact List.mem_cons_of_mem _ h⟩

theorem zip_key {a b : Boundaries} (hk : keys a = keys b) : ∀ p ∈ a.zip b, p.1.1 = p.2.1 := by
  induction a generalizing b with
  | nil => simp
  | cons e a ih =>
    cases b with
    | nil => simp
    | cons f b =>
      simp only [keys, List.map_cons, List.cons.injEq] at hk
      intro p hp
      rw [List.zip_cons_cons, List.mem_cons] at hp
      rcases hp with rfl | hp
      · exact hk.1
      · exact ih hk.2 p hp

/-- an event with chosen values for the variables. -/
def pick (l : List (String × ℚ)) (k : String) : ℚ := (l.lookup k).getD 0

theorem pick_zip {a b : Boundaries} (hk : keys a = keys b) (h : WF a) (f : (String × (ℚ × ℚ)) × (String × (ℚ × ℚ)) → ℚ) :
    ∀ p ∈ a.zip b, pick ((a.zip b).map fun p => (p.1.1, f p)) p.1.1 = f p := by
  intro p hp
  unfold pick
  have hn : (((a.zip b).map fun p => (p.1.1, f p)).map (·.1)).Nodup := by
    have : (((a.zip b).map fun p => (p.1.1, f p)).map (·.1)) = a.map (·.1) := by
      rw [List.map_map]
      have : ((fun x : String × ℚ => x.1) ∘ fun p : (String × (ℚ × ℚ)) × (String × (ℚ × ℚ)) => (p.1.1, f p)) = (fun x => x.1) ∘ Prod.fst := rfl
      rw [this, ← List.map_map, List.map_fst_zip (by rw [keys_length hk])]
    rw [this]
    exact h.nodup
  rw [lookup_of_mem hn (List.mem_map.2 ⟨p, hp, rfl⟩)]
  rfl

/-- **C40** bins in the same variables overlap in the sense of `strict=False` exactly if they share an event. -/
theorem overlap_iff (a b : Boundaries) (ha : WF a) (hk : keys a = keys b) (na : Nonempty a) (nb : Nonempty b) :
    overlap a b false = true ↔ ∃ x, Holds a x ∧ Holds b x := by
  unfold overlap
  rw [if_neg (not_not.2 hk), List.all_eq_true]
  constructor
  · intro h
    refine ⟨pick ((a.zip b).map fun p => (p.1.1, max p.1.2.1 p.2.2.1)), fun e he => ?_, fun f hf => ?_⟩
    · obtain ⟨f, hf, hz⟩ := zip_mem hk e he
      have hp := pick_zip hk ha (fun p => max p.1.2.1 p.2.2.1) _ hz
      have ho := h _ hz
      simp only [overlapInVariable, Bool.false_eq_true, if_false, decide_eq_true_eq] at ho
      have h1 := na e he
      have h2 := nb f hf
      rw [show e.1 = (e, f).1.1 from rfl, hp]
      refine ⟨le_max_left _ _, max_lt h1 ?_⟩
      by_contra hc
      rw [if_pos (not_lt.1 hc)] at ho
      simp at ho
    · obtain ⟨e, he, hz⟩ := zip_mem' hk f hf
      have hp := pick_zip hk ha (fun p => max p.1.2.1 p.2.2.1) _ hz
      have ho := h _ hz
      simp only [overlapInVariable, Bool.false_eq_true, if_false, decide_eq_true_eq] at ho
      have h1 := na e he
      have h2 := nb f hf
      rw [← zip_key hk _ hz, hp]
      refine ⟨le_max_right _ _, max_lt ?_ h2⟩
      by_contra hc
      by_cases h3 : e.2.2 ≤ f.2.1
      · rw [if_pos h3] at ho; simp at ho
      · rw [if_neg h3, if_pos (not_lt.1 hc)] at ho
        simp at ho
  · rintro ⟨x, hx, hy⟩ p hp
    have hm := List.of_mem_zip hp
    have h1 := hx _ hm.1
    have h2 := hy _ hm.2
    rw [← zip_key hk _ hp] at h2
    simp only [overlapInVariable, Bool.false_eq_true, if_false, decide_eq_true_eq]
    rw [if_neg (by intro h; linarith [h1.2, h2.1]), if_neg (by intro h; linarith [h1.1, h2.2])]

/-- **C40** the default `strict=True` is true exactly if the closed ranges share a point: -/
theorem overlap_strict_iff (a b : Boundaries) (ha : WF a) (hk : keys a = keys b) (na : construct a = some a) (nb : construct b = some b) :
    overlap a b true = true ↔ ∃ x, HoldsClosed a x ∧ HoldsClosed b x := by
  have hle : ∀ {c : Boundaries}, construct c = some c → ∀ e ∈ c, e.2.1 ≤ e.2.2 := by
    intro c hc e he
    unfold construct at hc
    by_cases h : c.any (fun e => decide (e.2.1 > e.2.2)) = true
    · rw [if_pos h] at hc; simp at hc
    · by_contra hn
      exact h (List.any_eq_true.2 ⟨e, he, by simpa using hn⟩)
  unfold overlap
  rw [if_neg (not_not.2 hk), List.all_eq_true]
  constructor
  · intro h
    refine ⟨pick ((a.zip b).map fun p => (p.1.1, max p.1.2.1 p.2.2.1)), fun e he => ?_, fun f hf => ?_⟩
    · obtain ⟨f, hf, hz⟩ := zip_mem hk e he
      have hp := pick_zip hk ha (fun p => max p.1.2.1 p.2.2.1) _ hz
      have ho := h _ hz
      simp only [overlapInVariable, if_true, decide_eq_true_eq] at ho
      rw [show e.1 = (e, f).1.1 from rfl, hp]
      refine ⟨le_max_left _ _, max_le (hle na e he) ?_⟩
      by_contra hc
      rw [if_pos (not_le.1 hc)] at ho
      simp at ho
    · obtain ⟨e, he, hz⟩ := zip_mem' hk f hf
      have hp := pick_zip hk ha (fun p => max p.1.2.1 p.2.2.1) _ hz
      have ho := h _ hz
      simp only [overlapInVariable, if_true, decide_eq_true_eq] at ho
      rw [← zip_key hk _ hz, hp]
      refine ⟨le_max_right _ _, max_le ?_ (hle nb f hf)⟩
      by_contra hc
      by_cases h3 : e.2.2 < f.2.1
      · rw [if_pos h3] at ho; simp at ho
      · rw [if_neg h3, if_pos (not_le.1 hc)] at ho
        simp at ho
  · rintro ⟨x, hx, hy⟩ p hp
    have hm := List.of_mem_zip hp
    have h1 := hx _ hm.1
    have h2 := hy _ hm.2
    rw [← zip_key hk _ hp] at h2
    simp only [overlapInVariable, if_true, decide_eq_true_eq]
    rw [if_neg (by intro h; linarith [h1.2, h2.1]), if_neg (by intro h; linarith [h1.1, h2.2])]

/-- **C40** so that adjacent bins, which share no event, "overlap" by default. -/
theorem adjacent_bins_overlap : ∃ a b : Boundaries, WF a ∧ WF b ∧ keys a = keys b ∧ overlap a b true = true ∧ ¬ ∃ x, Holds a x ∧ Holds b x := by
  refine ⟨[("mass", (0, 1))], [("mass", (1, 2))], by simp [WF], by simp [WF], rfl, by decide +kernel, ?_⟩
  rintro ⟨x, h1, h2⟩
  have a1 := (h1 _ List.mem_cons_self).2
  have a2 := (h2 _ List.mem_cons_self).1
  simp only at a1 a2
  linarith

/-- **C40** bins of a fit, which share no event, are strictly ordered. -/
theorem disjoint_bins_ordered (a b : Boundaries) (ha : WF a) (hk : keys a = keys b) (na : Nonempty a) (nb : Nonempty b)
    (hd : ¬ ∃ x, Holds a x ∧ Holds b x) : lt a b = true ∨ lt b a = true := by
  refine lt_total a b hk fun hc => hd ?_
  rw [← overlap_iff a b ha hk na nb]
  unfold overlap
  rw [if_neg (not_not.2 hk), List.all_eq_true]
  intro p hp
  have hm := List.of_mem_zip hp
  have h1 := na _ hm.1
  have h2 := nb _ hm.2
  have h3 := (center_of_index hk hc p hp).2
  simp only [overlapInVariable, Bool.false_eq_true, if_false, decide_eq_true_eq]
  rw [if_neg (by intro h; linarith), if_neg (by intro h; linarith)]

/-- **C40** `other in self` for bins: every event in `other` is in `self`. -/
theorem contains_iff (self other : Boundaries) (ho : WF other) (ne : Nonempty other) :
    contains self other = true ↔ ∀ x, Holds other x → Holds self x := by
  unfold contains
  rw [List.all_eq_true]
  constructor
  · intro h x hx e he
    have h1 := h e he
    cases hl : other.lookup e.1 with
    | none => rw [hl] at h1; simp at h1
    | some r =>
      rw [hl] at h1
      simp only [Bool.and_eq_true, decide_eq_true_eq] at h1
      have h2 := hx _ (mem_of_lookup hl)
      exact ⟨le_trans h1.1 h2.1, lt_of_lt_of_le h2.2 h1.2⟩
  · intro h e he
    have base : ∀ (v : ℚ), (∀ r, (e.1, r) ∈ other → r.1 ≤ v ∧ v < r.2) →
        Holds other (fun k => if k = e.1 then v else ((other.lookup k).getD (0, 0)).1) := by
      intro v hv f hf
      show f.2.1 ≤ (if f.1 = e.1 then v else ((other.lookup f.1).getD (0, 0)).1) ∧ (if f.1 = e.1 then v else ((other.lookup f.1).getD (0, 0)).1) < f.2.2
      by_cases hk : f.1 = e.1
      · rw [if_pos hk]
        exact hv f.2 (by rw [← hk]; exact hf)
      · rw [if_neg hk, lookup_of_mem ho.nodup (show (f.1, f.2) ∈ other from hf)]
        exact ⟨le_refl _, ne f hf⟩
    have use : ∀ (v : ℚ), (∀ r, (e.1, r) ∈ other → r.1 ≤ v ∧ v < r.2) → e.2.1 ≤ v ∧ v < e.2.2 := by
      intro v hv
      have := h _ (base v hv) e he
      simpa using this
    cases hl : other.lookup e.1 with
    | none =>
      exfalso
      have hno : ∀ r, (e.1, r) ∉ other := by
        intro r hr
        rw [lookup_of_mem ho.nodup hr] at hl
        simp at hl
      have := use e.2.2 (fun r hr => absurd hr (hno r))
      exact lt_irrefl _ this.2
    | some r =>
      have hm := mem_of_lookup hl
      have huniq : ∀ r', (e.1, r') ∈ other → r' = r := by
        intro r' hr'
        rw [lookup_of_mem ho.nodup hr', Option.some.injEq] at hl
        exact hl
      have hr := ne _ hm
      simp only at hr
      simp only [Bool.and_eq_true, decide_eq_true_eq]
      refine ⟨(use r.1 fun r' hr' => by rw [huniq r' hr']; exact ⟨le_refl _, hr⟩).1, ?_⟩
      by_contra hc
      have := use (max r.1 e.2.2) fun r' hr' => by
        rw [huniq r' hr']
        exact ⟨le_max_left _ _, max_lt hr (not_le.1 hc)⟩
      exact absurd this.2 (not_lt.2 (le_max_right _ _))

/-- **C40** `inBin` is membership in the half-open bin for events with exactly the variables of the bin. -/
theorem inBin_iff (self : Boundaries) (hs : WF self) (info : List (String × ℚ)) :
    inBin self info = true ↔ info.map (·.1) = keys self ∧ ∀ x, (∀ e ∈ info, x e.1 = e.2) → Holds self x := by
  unfold inBin
  by_cases hk : info.map (·.1) = keys self
  · rw [if_neg (not_not.2 hk), List.all_eq_true]
    have hn : (info.map (·.1)).Nodup := by rw [hk]; exact hs.nodup
    constructor
    · intro h
      refine ⟨hk, fun x hx f hf => ?_⟩
      have hf1 : f.1 ∈ info.map (·.1) := by rw [hk]; exact List.mem_map_of_mem (f := (·.1)) hf
      obtain ⟨e, he, hef⟩ := List.mem_map.1 hf1
      have h1 := h e he
      rw [hef, lookup_of_mem hs.nodup (show (f.1, f.2) ∈ self from hf)] at h1
      have h2 := hx e he
      rw [hef] at h2
      rw [h2]
      simpa using h1
    · rintro ⟨-, h⟩ e he
      have hx : ∀ e ∈ info, pick info e.1 = e.2 := fun e he => by
        unfold pick
        rw [lookup_of_mem hn (show (e.1, e.2) ∈ info from he)]; rfl
      have h1 := h (pick info) hx
      obtain ⟨r, hr⟩ := lookup_isSome (b := self) (k := e.1) (by
        have : e.1 ∈ info.map (·.1) := List.mem_map_of_mem (f := (·.1)) he
        rw [hk] at this; exact this)
      rw [hr]
      have h2 := h1 _ (mem_of_lookup hr)
      simp only at h2
      rw [hx e he] at h2
      simpa using h2
  · rw [if_pos hk]
    exact ⟨fun h => by simp at h, fun h => absurd h.1 hk⟩

/-! ### C40: the text form -/

/-- `float(repr(x))` is `x`, and the text of a number has no separator. -/
structure FloatText (repr : ℚ → List Char) (parse : List Char → Option ℚ) : Prop where
  parse_repr : ∀ x, parse (repr x) = some x
  no_comma : ∀ x, ',' ∉ repr x
  no_equal : ∀ x, '=' ∉ repr x

/-- the names of the variables have no separator. -/
def GoodNames (b : Boundaries) : Prop := ∀ e ∈ b, ',' ∉ e.1.toList ∧ '=' ∉ e.1.toList

theorem dictSet_last (b : Boundaries) (k : String) (v : ℚ × ℚ) (h : ∀ e ∈ b, e.1 < k) : dictSet b k v = b ++ [(k, v)] := by
  induction b with
  | nil => rfl
  | cons e b ih =>
    obtain ⟨k', v'⟩ := e
    have h' := h _ List.mem_cons_self
    simp only at h'
    rw [dictSet, if_neg (ne_of_gt h'), if_neg (not_lt.2 (le_of_lt h')), ih fun e he => h e (List.mem_cons_of_mem _ he)]
    rfl

variable {repr : ℚ → List Char} {parse : List Char → Option ℚ}

theorem parsePart_spec (ft : FloatText repr parse) (b : Boundaries) (e : String × (ℚ × ℚ)) (he : '=' ∉ e.1.toList) (h : ∀ f ∈ b, f.1 < e.1) :
    parsePart parse b (e.1.toList ++ '=' :: repr e.2.1 ++ '=' :: repr e.2.2) = some (b ++ [e]) := by
  unfold parsePart
  rw [List.append_assoc, List.cons_append, List.splitOn_append_cons_self_of_not_mem he,
    List.splitOn_append_cons_self_of_not_mem (ft.no_equal _), List.splitOn_eq_singleton (ft.no_equal _)]
  simp only [ft.parse_repr, Option.bind_eq_bind, Option.bind_some, Option.pure_def, String.ofList_toList]
  rw [dictSet_last _ _ _ h]

theorem foldlM_parsePart (ft : FloatText repr parse) (pre b : Boundaries) (hg : GoodNames b) (hwf : WF (pre ++ b)) :
    (b.map fun e => e.1.toList ++ '=' :: repr e.2.1 ++ '=' :: repr e.2.2).foldlM (parsePart parse) pre = some (pre ++ b) := by
  induction b generalizing pre with
  | nil => simp
  | cons e b ih =>
    rw [List.map_cons, List.foldlM_cons, parsePart_spec ft pre e (hg e List.mem_cons_self).2 ?_]
    · simp only [Option.bind_eq_bind, Option.bind_some]
      rw [ih (pre ++ [e]) (fun f hf => hg f (List.mem_cons_of_mem _ hf)) (by rw [List.append_assoc]; exact hwf)]
      simp
    · intro f hf
      unfold WF at hwf
      rw [List.map_append, List.pairwise_append] at hwf
      exact hwf.2.2 _ (List.mem_map_of_mem (f := (·.1)) hf) _ (by simp)

theorem part_no_comma (ft : FloatText repr parse) (e : String × (ℚ × ℚ)) (he : ',' ∉ e.1.toList) :
    ',' ∉ e.1.toList ++ '=' :: repr e.2.1 ++ '=' :: repr e.2.2 := by
  simp only [List.mem_append, List.mem_cons, not_or]
  exact ⟨⟨he, by decide, ft.no_comma _⟩, by decide, ft.no_comma _⟩

/-- **C40** the text form gives the bin back. Missing: names with separators (`uniqueStr_collision`, `uniqueStr_lost`). -/
theorem fromUniqueStr_uniqueStr_partial (ft : FloatText repr parse) (b : Boundaries) (hb : WF b) (hc : construct b = some b) (hg : GoodNames b) :
    fromUniqueStr parse (uniqueStr repr b) = some b := by
  unfold fromUniqueStr
  cases b with
  | nil => rfl
  | cons e b =>
    have hne : uniqueStr repr (e :: b) ≠ [] := by
      intro h
      have : '=' ∈ uniqueStr repr (e :: b) := by
        unfold uniqueStr
        rw [List.map_cons]
        cases b <;> simp [List.intercalate]
      rw [h] at this
      simp at this
    rw [if_neg hne]
    unfold uniqueStr
    rw [List.splitOn_intercalate ',' ?_ (by simp), foldlM_parsePart ft [] (e :: b) hg (by simpa using hb)]
    · simpa using hc
    · intro l hl
      obtain ⟨f, hf, rfl⟩ := List.mem_map.1 hl
      exact part_no_comma ft f (hg f hf).1

/-- **C40** and so identifies it. -/
theorem uniqueStr_inj_partial (ft : FloatText repr parse) (a b : Boundaries) (ha : WF a) (hb : WF b) (ca : construct a = some a) (cb : construct b = some b)
    (ga : GoodNames a) (gb : GoodNames b) (h : uniqueStr repr a = uniqueStr repr b) : a = b := by
  have h1 := fromUniqueStr_uniqueStr_partial ft a ha ca ga
  have h2 := fromUniqueStr_uniqueStr_partial ft b hb cb gb
  rw [h, h2] at h1
  exact (Option.some.inj h1).symm

/-- **C40** names with separators: two bins with the same text (for every text of numbers). -/
theorem uniqueStr_collision (repr : ℚ → List Char) : ∃ a b : Boundaries, WF a ∧ WF b ∧ construct a = some a ∧ construct b = some b ∧ a ≠ b ∧ uniqueStr repr a = uniqueStr repr b := by
  refine ⟨[("a", (0, 1)), ("b", (0, 1))], [(String.ofList ('a' :: '=' :: repr 0 ++ '=' :: repr 1 ++ ',' :: ['b']), (0, 1))], wf_two _ _ _ _ (by decide +kernel), by simp [WF],
    by decide +kernel, by simp [construct], by simp, ?_⟩
  simp [uniqueStr, List.intercalate]

/-- **C40** such a bin is also lost when the text is read, without an error. -/
theorem uniqueStr_lost (ft : FloatText repr parse) : ∃ a : Boundaries, WF a ∧ construct a = some a ∧ a ≠ [] ∧ fromUniqueStr parse (uniqueStr repr a) = some [] := by
  refine ⟨[("a=b", (0, 1))], by simp [WF], by decide +kernel, by simp, ?_⟩
  unfold fromUniqueStr
  have he : uniqueStr repr [("a=b", (0, 1))] = ['a'] ++ '=' :: (['b'] ++ '=' :: (repr 0 ++ '=' :: repr 1)) := by
    simp [uniqueStr, List.intercalate]
  rw [he, if_neg (by simp), List.splitOn_eq_singleton (by simp; exact ⟨ft.no_comma _, ft.no_comma _⟩)]
  simp only [List.foldlM_cons, List.foldlM_nil, Option.pure_def, parsePart]
  rw [List.splitOn_append_cons_self_of_not_mem (by decide), List.splitOn_append_cons_self_of_not_mem (by decide),
    List.splitOn_append_cons_self_of_not_mem (ft.no_equal _), List.splitOn_eq_singleton (ft.no_equal _)]
  rfl

/-! ### non-vacuity -/

/-- an exact text for the rational numbers: the decimal digits of their code. -/
def codeText (x : ℚ) : List Char := (Nat.repr (Encodable.encode x)).toList

open Classical in
noncomputable def codeParse (s : List Char) : Option ℚ := if h : ∃ x, codeText x = s then some h.choose else none

theorem codeText_ok : FloatText codeText codeParse where
  parse_repr := by
    intro x
    have h : ∃ y, codeText y = codeText x := ⟨x, rfl⟩
    unfold codeParse
    rw [dif_pos h]
    exact congrArg some (Encodable.encode_injective (Rpwa.Fit.repr_inj h.choose_spec))
  no_comma := fun x h => absurd (Rpwa.Fit.repr_isDigit _ _ h) (by decide)
  no_equal := fun x h => absurd (Rpwa.Fit.repr_isDigit _ _ h) (by decide)

/-- two neighbouring bins in mass and t'. -/
def binA : Boundaries := [("mass", (1, 3/2)), ("tPrime", (1/10, 1))]
def binB : Boundaries := [("mass", (3/2, 2)), ("tPrime", (1/10, 1))]

example : WF binA ∧ WF binB ∧ keys binA = keys binB ∧ Nonempty binA ∧ Nonempty binB ∧ construct binA = some binA ∧ construct binB = some binB ∧
    GoodNames binA ∧ GoodNames binB ∧ binA ≠ binB := by
  refine ⟨wf_two _ _ _ _ (by decide +kernel), wf_two _ _ _ _ (by decide +kernel), rfl, ?_, ?_, by decide +kernel, by decide +kernel, ?_, ?_, by decide +kernel⟩
  · simp only [Nonempty, binA, List.forall_mem_cons]; norm_num
  · simp only [Nonempty, binB, List.forall_mem_cons]; norm_num
  · simp only [GoodNames, binA, List.forall_mem_cons]; simp
  · simp only [GoodNames, binB, List.forall_mem_cons]; simp

example : lt binA binB = true ∧ overlap binA binB false = false ∧ overlap binA binB true = true := by decide +kernel

example : fromUniqueStr codeParse (uniqueStr codeText binA) = some binA :=
  fromUniqueStr_uniqueStr_partial codeText_ok binA (wf_two _ _ _ _ (by decide +kernel)) (by decide +kernel) (by simp only [GoodNames, binA, List.forall_mem_cons]; simp)

end Rpwa.MultiBin
