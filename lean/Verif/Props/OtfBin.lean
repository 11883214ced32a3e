import Verif.Model.OtfBin
import Verif.Props.IntegralMatrix
import Mathlib.Data.List.Count
import Mathlib.Data.List.GetD
import Mathlib.Data.List.Perm.Basic
import Mathlib.Data.List.Induction
import Mathlib.Tactic.Linarith
/-!
# Bins of events (C39) and the amplitudes read for them (C48) -/
namespace Rpwa.Otf
open Rpwa.Storage

/-! ### specification -/

/-- all values are in the half-open ranges of the bin. -/
def InBin (value : String → ℝ) (bin : Bin) : Prop := ∀ e ∈ bin, e.2.1 ≤ value e.1 ∧ value e.1 < e.2.2

/-- bins between adjacent edges. -/
def cells : List ℝ → List (ℝ × ℝ)
  | a :: b :: es => (a, b) :: cells (b :: es)
  | _ => []

/-- a grid: edges for every variable. -/
abbrev Grid := List (String × List ℝ)

/-- all combinations of bins. -/
def gridBins : Grid → List Bin
  | [] => [[]]
  | (v, es) :: g => (cells es).flatMap fun c => (gridBins g).map fun b => (v, c) :: b

/-- edges in increasing order. -/
def Sorted (g : Grid) : Prop := ∀ e ∈ g, e.2.Pairwise (· < ·)

/-- the event is in the range of the grid. -/
def InRange (value : String → ℝ) (g : Grid) : Prop := ∀ e ∈ g, ∃ lo hi, e.2.head? = some lo ∧ e.2.getLast? = some hi ∧ lo ≤ value e.1 ∧ value e.1 < hi

/-! ### C39 -/

/-- **C39** the likelihood uses half-open ranges. -/
theorem useEvent_iff (value : String → ℝ) (bin : Bin) : useEvent value bin = true ↔ InBin value bin := by
  unfold InBin
  induction bin with
  | nil => simp [useEvent]
  | cons e l ih =>
    obtain ⟨v, b⟩ := e
    simp only [useEvent, List.forall_mem_cons]
    split
    · rename_i h
      constructor
      · intro hf; simp at hf
      · rintro ⟨⟨h1, h2⟩, -⟩
        exact absurd h (by push Not; exact ⟨h1, h2⟩)
    · rename_i h
      push Not at h
      rw [ih]
      exact ⟨fun x => ⟨h, x⟩, fun x => x.2⟩

/-- **C39** so does the calculation of integrals, which rejects events without the variable. -/
theorem inBoundaries_iff (vars : String → Option ℝ) (bin : Bin) :
    inBoundaries vars bin = true ↔ ∀ e ∈ bin, ∃ x, vars e.1 = some x ∧ e.2.1 ≤ x ∧ x < e.2.2 := by
  induction bin with
  | nil => simp [inBoundaries]
  | cons e l ih =>
    obtain ⟨v, b⟩ := e
    simp only [inBoundaries, List.forall_mem_cons]
    cases hv : vars v with
    | none => simp
    | some x =>
      dsimp only
      split
      · rename_i h
        constructor
        · intro hf; simp at hf
        · rintro ⟨⟨y, hy, h1, h2⟩, -⟩
          obtain rfl := Option.some.inj hy
          exact absurd h (by push Not; exact ⟨h1, h2⟩)
      · rename_i h
        push Not at h
        rw [ih]
        exact ⟨fun z => ⟨⟨x, rfl, h⟩, z⟩, fun z => z.2⟩

theorem eventIndices_eq (val : Dbl → ℝ) (bin : Bin) (t : Tree) :
    eventIndices val bin t = (List.range t.rows.length).filter fun i => useEvent (binValue val t (t.rows.getD i ⟨[], [], []⟩)) bin := by
  unfold eventIndices
  have key : ∀ (rows : List Row) (f : Row → Bool) (acc : List ℕ), rows.zipIdx.foldl (fun is ri => if f ri.1 then is ++ [ri.2] else is) acc =
      acc ++ (List.range rows.length).filter fun i => f (rows.getD i ⟨[], [], []⟩) := by
    intro rows f
    induction rows using List.reverseRecOn with
    | nil => intro acc; simp
    | append_singleton rows r ih =>
      intro acc
      rw [List.zipIdx_append, List.foldl_append, ih]
      rw [List.length_append, List.length_singleton, List.range_succ, List.filter_append]
      have h1 : (List.range rows.length).filter (fun i => f ((rows ++ [r]).getD i ⟨[], [], []⟩)) = (List.range rows.length).filter (fun i => f (rows.getD i ⟨[], [], []⟩)) := by
        apply List.filter_congr
        intro i hi
        rw [List.getD_append _ _ _ _ (List.mem_range.1 hi)]
      have h2 : (rows ++ [r]).getD rows.length ⟨[], [], []⟩ = r := by simp
      rw [h1]
      simp only [List.zipIdx_cons, List.zipIdx_nil, List.foldl_cons, List.foldl_nil, Nat.zero_add]
      by_cases hf : f r = true
      · simp [hf]
      · simp [hf]
  have := key t.rows (fun r => useEvent (binValue val t r) bin) []
  simpa using this

/-- **C39** the entries selected by the likelihood are exactly the events of the file in the bin, each once, in order. -/
theorem eventIndices_spec (val : Dbl → ℝ) (bin : Bin) (t : Tree) :
    (∀ i, i ∈ eventIndices val bin t ↔ ∃ r, t.rows[i]? = some r ∧ InBin (binValue val t r) bin) ∧ (eventIndices val bin t).Pairwise (· < ·) := by
  rw [eventIndices_eq]
  refine ⟨fun i => ?_, List.Pairwise.filter _ List.pairwise_lt_range⟩
  rw [List.mem_filter, List.mem_range]
  constructor
  · rintro ⟨h1, h2⟩
    refine ⟨t.rows[i], List.getElem?_eq_getElem h1, ?_⟩
    rw [useEvent_iff] at h2
    simpa [h1] using h2
  · rintro ⟨r, h1, h2⟩
    have hlt : i < t.rows.length := (List.getElem?_eq_some_iff.1 h1).1
    refine ⟨hlt, ?_⟩
    rw [useEvent_iff, List.getD_eq_getElem?_getD, h1]
    exact h2

open Classical in
theorem cells_count (es : List ℝ) (hs : es.Pairwise (· < ·)) (x : ℝ) :
    ((cells es).countP fun c => decide (c.1 ≤ x ∧ x < c.2)) =
      if ∃ lo hi, es.head? = some lo ∧ es.getLast? = some hi ∧ lo ≤ x ∧ x < hi then 1 else 0 := by
  induction es with
  | nil => simp [cells]
  | cons a es ih =>
    cases es with
    | nil =>
      simp only [cells, List.countP_nil, List.head?_cons, List.getLast?_singleton, Option.some.injEq]
      rw [if_neg]
      rintro ⟨lo, hi, rfl, rfl, h1, h2⟩
      linarith
    | cons b es =>
      rw [List.pairwise_cons] at hs
      have hab : a < b := hs.1 b List.mem_cons_self
      have ih := ih hs.2
      have hlast : ∀ hi, (b :: es).getLast? = some hi → b ≤ hi := by
        intro hi hh
        have hmem : hi ∈ b :: es := List.mem_of_getLast? hh
        rcases List.mem_cons.1 hmem with h | h
        · rw [h]
        · exact ((List.pairwise_cons.1 hs.2).1 hi h).le
      rw [cells, List.countP_cons, ih]
      have hne : (b :: es).getLast? = some ((b :: es).getLast (by simp)) := List.getLast?_eq_some_getLast (by simp)
      set L := (b :: es).getLast (by simp) with hL
      have hbL : b ≤ L := hlast L hne
      have hne' : (a :: b :: es).getLast? = some L := by rw [List.getLast?_cons_cons]; exact hne
      have e1 : (∃ lo hi, (b :: es).head? = some lo ∧ (b :: es).getLast? = some hi ∧ lo ≤ x ∧ x < hi) ↔ (b ≤ x ∧ x < L) := by
        rw [hne]
        simp
      have e2 : (∃ lo hi, (a :: b :: es).head? = some lo ∧ (a :: b :: es).getLast? = some hi ∧ lo ≤ x ∧ x < hi) ↔ (a ≤ x ∧ x < L) := by
        rw [hne']
        simp
      simp only [e1, e2, decide_eq_true_eq]
      by_cases h1 : b ≤ x
      · have h2 : ¬ (a ≤ x ∧ x < b) := fun h => by linarith [h.2]
        rw [if_neg h2]
        by_cases h3 : x < L
        · rw [if_pos ⟨h1, h3⟩, if_pos ⟨by linarith, h3⟩]
        · rw [if_neg (fun h => h3 h.2), if_neg (fun h => h3 h.2)]
      · rw [if_neg (fun h => h1 h.1)]
        push Not at h1
        by_cases h3 : a ≤ x
        · rw [if_pos ⟨h3, h1⟩, if_pos ⟨h3, by linarith⟩]
        · rw [if_neg (fun h => h3 h.1), if_neg (fun h => h3 h.1)]

theorem countP_flatMap {α β : Type} (p : β → Bool) (l : List α) (f : α → List β) : (l.flatMap f).countP p = (l.map fun a => (f a).countP p).sum := by
  induction l with
  | nil => rfl
  | cons a l ih => rw [List.flatMap_cons, List.countP_append, ih]; simp

theorem sum_map_ite {α : Type} (l : List α) (p : α → Bool) (n : ℕ) : (l.map fun a => if p a then n else 0).sum = l.countP p * n := by
  induction l with
  | nil => simp
  | cons a l ih =>
    rw [List.map_cons, List.sum_cons, ih, List.countP_cons]
    by_cases h : p a = true <;> simp [h, Nat.add_mul, Nat.add_comm]

open Classical in
/-- **C39** every event in the range of a grid of adjacent bins is in exactly one bin, and every other event is in none. -/
theorem grid_partition (g : Grid) (hs : Sorted g) (value : String → ℝ) :
    ((gridBins g).countP fun b => useEvent value b) = if InRange value g then 1 else 0 := by
  induction g with
  | nil => simp [gridBins, useEvent, InRange]
  | cons e g ih =>
    obtain ⟨v, es⟩ := e
    have ih := ih (fun x hx => hs x (List.mem_cons_of_mem _ hx))
    have hes := hs (v, es) List.mem_cons_self
    rw [gridBins, countP_flatMap]
    have h1 : ∀ c : ℝ × ℝ, ((gridBins g).map fun b => (v, c) :: b).countP (fun b => useEvent value b) =
        if decide (c.1 ≤ value v ∧ value v < c.2) = true then (gridBins g).countP fun b => useEvent value b else 0 := by
      intro c
      rw [List.countP_map]
      by_cases hc : c.1 ≤ value v ∧ value v < c.2
      · rw [if_pos (decide_eq_true hc)]
        congr 1
        funext b
        simp only [Function.comp, useEvent]
        rw [if_neg (by push Not; exact hc)]
      · rw [if_neg (by simpa using hc)]
        rw [List.countP_eq_zero]
        intro b _
        simp only [Function.comp, useEvent]
        rw [if_pos (by by_contra h; push Not at h; exact hc h)]
        simp
    rw [List.map_congr_left (fun c _ => h1 c), sum_map_ite, cells_count es hes, ih]
    have hiff : InRange value ((v, es) :: g) ↔ (∃ lo hi, es.head? = some lo ∧ es.getLast? = some hi ∧ lo ≤ value v ∧ value v < hi) ∧ InRange value g := by
      unfold InRange
      rw [List.forall_mem_cons]
    rw [if_congr hiff rfl rfl]
    by_cases ha : ∃ lo hi, es.head? = some lo ∧ es.getLast? = some hi ∧ lo ≤ value v ∧ value v < hi
    · by_cases hb : InRange value g
      · rw [if_pos ha, if_pos hb, if_pos ⟨ha, hb⟩]
      · rw [if_neg hb, if_neg (fun h : (∃ lo hi, es.head? = some lo ∧ es.getLast? = some hi ∧ lo ≤ value v ∧ value v < hi) ∧ InRange value g => hb h.2), Nat.mul_zero]
    · rw [if_neg ha, if_neg (fun h : (∃ lo hi, es.head? = some lo ∧ es.getLast? = some hi ∧ lo ≤ value v ∧ value v < hi) ∧ InRange value g => ha h.1), Nat.zero_mul]

open Classical in
/-- **C39** the events that the likelihoods of the bins of a grid select are together the events in range, each exactly once. -/
theorem binned_sample_partition (val : Dbl → ℝ) (g : Grid) (hs : Sorted g) (t : Tree) :
    ((gridBins g).flatMap fun b => eventIndices val b t).Perm
      ((List.range t.rows.length).filter fun i => decide (InRange (binValue val t (t.rows.getD i ⟨[], [], []⟩)) g)) := by
  rw [List.perm_iff_count]
  intro i
  rw [List.count, countP_flatMap]
  have h1 : ∀ b : Bin, (eventIndices val b t).countP (fun x => x == i) =
      if useEvent (binValue val t (t.rows.getD i ⟨[], [], []⟩)) b = true then (if i < t.rows.length then 1 else 0) else 0 := by
    intro b
    have hnd : (eventIndices val b t).Nodup := (eventIndices_spec val b t).2.imp (fun h => Nat.ne_of_lt h)
    have hc := hnd.count (a := i)
    rw [List.count] at hc
    rw [hc]
    have hm : i ∈ eventIndices val b t ↔ i < t.rows.length ∧ useEvent (binValue val t (t.rows.getD i ⟨[], [], []⟩)) b = true := by
      rw [eventIndices_eq, List.mem_filter, List.mem_range]
    by_cases ha : i < t.rows.length <;> by_cases hb : useEvent (binValue val t (t.rows.getD i ⟨[], [], []⟩)) b = true
    · rw [if_pos (hm.2 ⟨ha, hb⟩), if_pos hb, if_pos ha]
    · rw [if_neg (fun h => hb (hm.1 h).2), if_neg hb]
    · rw [if_neg (fun h => ha (hm.1 h).1), if_pos hb, if_neg ha]
    · rw [if_neg (fun h => hb (hm.1 h).2), if_neg hb]
  rw [List.map_congr_left (fun b _ => h1 b), sum_map_ite, grid_partition g hs]
  have hnd : ((List.range t.rows.length).filter fun i => decide (InRange (binValue val t (t.rows.getD i ⟨[], [], []⟩)) g)).Nodup := List.nodup_range.filter _
  have hc := hnd.count (a := i)
  rw [List.count] at hc
  rw [hc]
  have hm : i ∈ ((List.range t.rows.length).filter fun i => decide (InRange (binValue val t (t.rows.getD i ⟨[], [], []⟩)) g)) ↔
      i < t.rows.length ∧ InRange (binValue val t (t.rows.getD i ⟨[], [], []⟩)) g := by
    rw [List.mem_filter, List.mem_range, decide_eq_true_eq]
  by_cases ha : i < t.rows.length <;> by_cases hb : InRange (binValue val t (t.rows.getD i ⟨[], [], []⟩)) g
  · rw [if_pos ha, if_pos hb, if_pos (hm.2 ⟨ha, hb⟩)]
  · rw [if_neg hb, if_neg (fun h => hb (hm.1 h).2), Nat.zero_mul]
  · rw [if_neg ha, if_neg (fun h => ha (hm.1 h).1), Nat.mul_zero]
  · rw [if_neg hb, if_neg (fun h => hb (hm.1 h).2), Nat.zero_mul]

/-- non-vacuity: two variables, six bins. -/
example : (gridBins [("mass", [1, 2, 3, 4]), ("tPrime", [0, 1, 2])]).length = 6 ∧ Sorted [("mass", [1, 2, 3, 4]), ("tPrime", [0, 1, 2])] := by
  refine ⟨rfl, ?_⟩
  intro e he
  simp only [List.mem_cons, List.not_mem_nil, or_false] at he
  rcases he with rfl | rfl <;> simp <;> norm_num

/-- witness: a binning variable that is not in the file is taken to be 0 by the likelihood; the integrals of the same bin take no event. -/
theorem missing_variable_is_zero (val : Dbl → ℝ) (x : Dbl) :
    eventIndices val [("tPrime", (0, 1))] ⟨["mass"], [⟨[], [], [x]⟩]⟩ = [0] ∧
    inBoundaries (fun v => if v = "mass" then some (val x) else none) [("tPrime", (0, 1))] = false := by
  constructor
  · have hb : branchOf ["mass"] "tPrime" = none := by decide
    rw [eventIndices_eq]
    have : useEvent (binValue val ⟨["mass"], [⟨[], [], [x]⟩]⟩ ⟨[], [], [x]⟩) [("tPrime", (0, 1))] = true := by
      rw [useEvent_iff]
      intro e he
      rw [List.mem_singleton] at he
      subst he
      simp [binValue, hb]
    simp [this]
  · simp [inBoundaries]

open Integral in
/-- **C39** integrals of bins add up: when every event is in exactly one of the bins, event numbers and sums of amplitude products of the bins
add up to those of the full sample. -/
theorem binned_integrals_add (trees : List AmpTree) (hn : (trees.map (·.wave)).Nodup) (mx : ℤ) (n : ℕ) (bins : List (ℕ → Bool))
    (hpart : ∀ ev < ((trees.head?.map (·.events.length)).getD 0), bins.countP (fun b => b ev) = 1)
    (m : IntMat) (hm : m.WF) (full : IntMat) (hfull : m.integrate trees mx none none = .ok (true, full))
    (res : (ℕ → Bool) → IntMat) (hres : ∀ b ∈ bins, ∃ m0 : IntMat, m0.WF ∧ m0.integrate trees mx none (some (n, b)) = .ok (true, res b)) :
    full.nmbEvents = (bins.map fun b => (res b).nmbEvents).sum ∧
    ∀ x ∈ full.names, ∀ y ∈ full.names, full.entry x y = (bins.map fun b => (res b).entry x y).sum := by
  obtain ⟨f1, f2, f3, _, f5⟩ := integrate_ok m trees mx none none hm hn full hfull
  set N : ℕ := if mx ≤ 0 then ((trees.head?.map (·.events.length)).getD 0) else min ((trees.head?.map (·.events.length)).getD 0) mx.toNat with hN
  have hNle : N ≤ (trees.head?.map (·.events.length)).getD 0 := by rw [hN]; split <;> omega
  have hselN : selectedEvents trees mx none = List.range N := by
    unfold selectedEvents
    simp [hN]
  have hselB : ∀ b : ℕ → Bool, selectedEvents trees mx (some (n, b)) = (List.range N).filter b := by
    intro b
    unfold selectedEvents
    simp [hN]
  have hsample : ∀ (bb : Option (ℕ × (ℕ → Bool))) (x y : String), sampleSum (treeSample trees mx none bb) x y =
      ((selectedEvents trees mx bb).map fun ev => sampleSum ((List.range (nmbSub trees ev)).map fun q => ((1 : ℝ), treeAmp trees ev q)) x y).sum := by
    intro bb x y
    unfold treeSample
    have key : ∀ (L : List ℕ) (k : ℕ), sampleSum ((L.zipIdx k).flatMap fun ek => (List.range (nmbSub trees ek.1)).map fun q =>
        (eventWeight none (selectedEvents trees mx bb).length ek.2, treeAmp trees ek.1 q)) x y =
        (L.map fun ev => sampleSum ((List.range (nmbSub trees ev)).map fun q => ((1 : ℝ), treeAmp trees ev q)) x y).sum := by
      intro L
      induction L with
      | nil => intro k; simp [sampleSum]
      | cons a L ih =>
        intro k
        rw [List.zipIdx_cons, List.flatMap_cons, sampleSum_append, ih]
        simp [eventWeight]
    exact key _ 0
  have hcount : ∀ (F : ℕ → ℂ) (L : List ℕ), (∀ ev ∈ L, bins.countP (fun b => b ev) = 1) →
      (L.map F).sum = (bins.map fun b => ((L.filter b).map F).sum).sum := by
    intro F L
    induction L with
    | nil => intro _; simp
    | cons a L ih =>
      intro hL
      rw [List.map_cons, List.sum_cons, ih (fun ev hev => hL ev (List.mem_cons_of_mem _ hev))]
      have h1 : ∀ b : ℕ → Bool, (((a :: L).filter b).map F).sum = (if b a then F a else 0) + ((L.filter b).map F).sum := by
        intro b
        by_cases hb : b a = true
        · simp [hb]
        · simp [hb]
      rw [List.map_congr_left (fun b _ => h1 b), List.sum_map_add]
      congr 1
      have h2 := hL a List.mem_cons_self
      have h3 : ∀ l : List (ℕ → Bool), (l.map fun b => if b a then F a else 0).sum = (l.countP fun b => b a) * F a := by
        intro l
        induction l with
        | nil => simp
        | cons b l ih2 =>
          rw [List.map_cons, List.sum_cons, ih2, List.countP_cons]
          by_cases hb : b a = true
          · simp [hb]; ring
          · simp [hb]
      rw [h3, h2]
      simp
  have hall : ∀ ev ∈ List.range N, bins.countP (fun b => b ev) = 1 := fun ev hev => hpart ev (lt_of_lt_of_le (List.mem_range.1 hev) hNle)
  constructor
  · have h1 : ∀ b ∈ bins, (res b).nmbEvents = ((List.range N).filter b).length := by
      intro b hb
      obtain ⟨m0, hw, hi⟩ := hres b hb
      rw [(integrate_ok m0 trees mx none (some (n, b)) hw hn (res b) hi).2.2.1, hselB]
    rw [f3, hselN, List.map_congr_left h1]
    have h2 := hcount (fun _ => 1) (List.range N) hall
    simp only [List.map_const', List.sum_replicate, nsmul_eq_mul, mul_one, List.length_range] at h2 ⊢
    have h3 : ((bins.map fun b => ((((List.range N).filter b).length : ℕ) : ℂ)).sum) = (((bins.map fun b => ((List.range N).filter b).length).sum : ℕ) : ℂ) := by
      induction bins with
      | nil => simp
      | cons b l ih2 => simp only [List.map_cons, List.sum_cons, Nat.cast_add]; congr 1; clear * -; induction l with
        | nil => simp
        | cons b l ih3 => simp [ih3]
    rw [h3] at h2
    exact_mod_cast h2
  · intro x hx y hy
    rw [f5 x hx y hy, hsample, hselN, hcount _ _ hall]
    congr 1
    apply List.map_congr_left
    intro b hb
    obtain ⟨m0, hw, hi⟩ := hres b hb
    obtain ⟨-, g2, -, -, g5⟩ := integrate_ok m0 trees mx none (some (n, b)) hw hn (res b) hi
    rw [g5 x (by rw [g2, ← f2]; exact hx) y (by rw [g2, ← f2]; exact hy), hsample, hselB]

end Rpwa.Otf
