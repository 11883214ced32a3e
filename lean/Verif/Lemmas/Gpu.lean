import Verif.Model.CudaLik
import Verif.Lemmas.Outcome
import Mathlib.Data.List.Perm.Basic
import Mathlib.Algebra.BigOperators.Group.Finset.Basic
import Mathlib.Tactic.Ring
import Mathlib.Tactic.Abel
/-! Threads that only read arrays nobody writes and write different elements: every interleaving gives the same memory. -/
namespace Rpwa.Cuda

/-- one write access. -/
abbrev Wr := ℕ × ℕ × Val

/-- in memory `h` the program ends with result `a` after the writes `ws`; it reads only arrays outside `W` and writes only arrays
in `W`. -/
inductive Runs {α : Type} (h : Heap) (W : ℕ → Prop) : Prog α → List Wr → α → Prop
  | ret (a : α) : Runs h W (.ret a) [] a
  | read {p o : ℕ} {k : Val → Prog α} {v : Val} {ws : List Wr} {a : α} : ¬ W p → h.get p o = some v → Runs h W (k v) ws a → Runs h W (.read p o k) ws a
  | write {p o : ℕ} {v : Val} {k : Prog α} {b : Block} {ws : List Wr} {a : α} : W p → h p = some b → o < b.len → Runs h W k ws a →
      Runs h W (.write p o v k) ((p, o, v) :: ws) a

/-- the two memories differ only in the contents of the arrays `W`. -/
structure Agree (W : ℕ → Prop) (h h' : Heap) : Prop where
  same : ∀ p, ¬ W p → h' p = h p
  len : ∀ p, (h' p).map Block.len = (h p).map Block.len

theorem Agree.refl {W : ℕ → Prop} (h : Heap) : Agree W h h := ⟨fun _ _ => rfl, fun _ => rfl⟩

/-- effect of one write inside its array. -/
def apply1 (h : Heap) (w : Wr) : Heap :=
  Function.update h w.1 ((h w.1).map fun b => { b with cell := Function.update b.cell w.2.1 (some w.2.2) })

def applyAll (h : Heap) (ws : List Wr) : Heap := ws.foldl apply1 h

theorem Agree.get {W : ℕ → Prop} {h h' : Heap} (hA : Agree W h h') {p : ℕ} (hp : ¬ W p) (o : ℕ) : h'.get p o = h.get p o := by
  unfold Heap.get
  rw [hA.same p hp]

theorem Agree.block {W : ℕ → Prop} {h h' : Heap} (hA : Agree W h h') {p : ℕ} {b : Block} (hb : h p = some b) :
    ∃ b', h' p = some b' ∧ b'.len = b.len := by
  have := hA.len p
  rw [hb] at this
  cases hb' : h' p with
  | none => rw [hb'] at this; simp at this
  | some b' => rw [hb'] at this; exact ⟨b', rfl, by simpa using this⟩

theorem Agree.apply1 {W : ℕ → Prop} {h h' : Heap} (hA : Agree W h h') {w : Wr} (hw : W w.1) : Agree W h (apply1 h' w) := by
  constructor
  · intro p hp
    have hne : p ≠ w.1 := fun e => hp (e ▸ hw)
    unfold Cuda.apply1
    rw [Function.update_of_ne hne]
    exact hA.same p hp
  · intro p
    unfold Cuda.apply1
    by_cases hne : p = w.1
    · subst hne
      rw [Function.update_self, ← hA.len]
      cases h' w.1 <;> rfl
    · rw [Function.update_of_ne hne]
      exact hA.len p

theorem set_eq {h : Heap} {p o : ℕ} {v : Val} {b : Block} (hb : h p = some b) (ho : o < b.len) : h.set p o v = some (Cuda.apply1 h (p, o, v)) := by
  unfold Heap.set Cuda.apply1
  rw [hb]
  simp only [ho, if_true, Option.map_some]

theorem Runs.agree {α : Type} {W : ℕ → Prop} {h h' : Heap} (hA : Agree W h h') {t : Prog α} {ws : List Wr} {a : α} (hr : Runs h W t ws a) :
    Runs h' W t ws a := by
  induction hr with
  | ret a => exact .ret a
  | read hp hg _ ih => exact .read hp ((hA.get hp _).trans hg) ih
  | write hp hb ho _ ih =>
    obtain ⟨b', hb', hl⟩ := hA.block hb
    exact .write hp hb' (hl ▸ ho) ih

theorem finish_runs {W : ℕ → Prop} {h0 : Heap} {t : Prog Unit} {ws : List Wr} {u : Unit} (hr : Runs h0 W t ws u) :
    ∀ h, Agree W h0 h → finish t h = .ok (applyAll h ws) ∧ Agree W h0 (applyAll h ws) := by
  induction hr with
  | ret a => intro h hA; exact ⟨rfl, hA⟩
  | read hp hg _ ih =>
    intro h hA
    have := ih h hA
    unfold finish
    rw [hA.get hp, hg]
    exact this
  | @write p o v k b ws a hp hb ho _ ih =>
    intro h hA
    obtain ⟨b', hb', hl⟩ := hA.block hb
    unfold finish
    rw [set_eq hb' (hl ▸ ho)]
    exact ih _ (hA.apply1 hp)

theorem finishAll {W : ℕ → Prop} {h0 : Heap} {ts : List (Prog Unit)} {wss : List (List Wr)}
    (hr : List.Forall₂ (fun t ws => Runs h0 W t ws ()) ts wss) :
    ∀ h, Agree W h0 h → ts.foldlM (fun h t => finish t h) h = .ok (applyAll h wss.flatten) := by
  induction hr with
  | nil => intro h _; rfl
  | cons hh _ ih =>
    intro h hA
    obtain ⟨h1, h2⟩ := finish_runs hh h hA
    rw [List.foldlM_cons, h1, Outcome.ok_bind, ih _ h2]
    simp [applyAll, List.foldl_append]

theorem step_runs {W : ℕ → Prop} {h0 : Heap} {t : Prog Unit} {ws : List Wr} (hr : Runs h0 W t ws ()) (h : Heap) (hA : Agree W h0 h) :
    ∃ ds t' ws', step h t = .ok (applyAll h ds, t') ∧ Agree W h0 (applyAll h ds) ∧ Runs h0 W t' ws' () ∧ ds ++ ws' = ws := by
  cases hr with
  | ret => exact ⟨[], _, _, rfl, hA, .ret (), rfl⟩
  | read hp hg hk =>
    refine ⟨[], _, _, ?_, hA, hk, rfl⟩
    unfold step
    dsimp only
    rw [hA.get hp, hg]
    rfl
  | @write p o v k b ws a hp hb ho hk =>
    obtain ⟨b', hb', hl⟩ := hA.block hb
    refine ⟨[(p, o, v)], k, ws, ?_, hA.apply1 hp, hk, rfl⟩
    unfold step
    dsimp only
    rw [set_eq hb' (hl ▸ ho)]
    rfl

theorem flatten_set_perm {wss : List (List Wr)} {i : ℕ} {ws ds ws' : List Wr} (hi : wss[i]? = some ws) (he : ds ++ ws' = ws) :
    (ds ++ (wss.set i ws').flatten).Perm wss.flatten := by
  induction wss generalizing i with
  | nil => simp at hi
  | cons a l ih =>
    cases i with
    | zero =>
      simp only [List.getElem?_cons_zero, Option.some.injEq] at hi
      subst hi
      subst he
      simp [List.append_assoc]
    | succ i =>
      simp only [List.getElem?_cons_succ] at hi
      have := ih hi
      simp only [List.set_cons_succ, List.flatten_cons]
      refine List.Perm.trans ?_ (List.Perm.append_left a this)
      rw [← List.append_assoc, ← List.append_assoc]
      exact List.Perm.append_right _ List.perm_append_comm

theorem forall₂_set {R : Prog Unit → List Wr → Prop} {ts : List (Prog Unit)} {wss : List (List Wr)} (h : List.Forall₂ R ts wss) (i : ℕ)
    {t : Prog Unit} {ws : List Wr} (hr : R t ws) : List.Forall₂ R (ts.set i t) (wss.set i ws) := by
  induction h generalizing i with
  | nil => simp
  | cons h1 h2 ih =>
    cases i with
    | zero => exact .cons hr h2
    | succ i => exact .cons h1 (ih i)

theorem forall₂_get {R : Prog Unit → List Wr → Prop} {ts : List (Prog Unit)} {wss : List (List Wr)} (h : List.Forall₂ R ts wss) {i : ℕ}
    {t : Prog Unit} (ht : ts[i]? = some t) : ∃ ws, wss[i]? = some ws ∧ R t ws := by
  induction h generalizing i with
  | nil => simp at ht
  | cons h1 h2 ih =>
    cases i with
    | zero => simp only [List.getElem?_cons_zero, Option.some.injEq] at ht; subst ht; exact ⟨_, rfl, h1⟩
    | succ i => exact ih ht

theorem runSched_runs {W : ℕ → Prop} {h0 : Heap} (s : List ℕ) :
    ∀ {ts : List (Prog Unit)} {wss : List (List Wr)} (_ : List.Forall₂ (fun t ws => Runs h0 W t ws ()) ts wss) (h : Heap),
      Agree W h0 h → ∃ ds ts' wss', runSched s h ts = .ok (applyAll h ds, ts') ∧ Agree W h0 (applyAll h ds) ∧
        List.Forall₂ (fun t ws => Runs h0 W t ws ()) ts' wss' ∧ (ds ++ wss'.flatten).Perm wss.flatten := by
  induction s with
  | nil => intro ts wss hr h hA; exact ⟨[], ts, wss, rfl, hA, hr, .refl _⟩
  | cons i s ih =>
    intro ts wss hr h hA
    cases ht : ts[i]? with
    | none =>
      obtain ⟨ds, ts', wss', h1, h2, h3, h4⟩ := ih hr h hA
      refine ⟨ds, ts', wss', ?_, h2, h3, h4⟩
      unfold runSched
      rw [ht]
      exact h1
    | some t =>
      obtain ⟨ws, hws, hrt⟩ := forall₂_get hr ht
      obtain ⟨ds1, t', ws', g1, g2, g3, g4⟩ := step_runs hrt h hA
      obtain ⟨ds, ts', wss', h1, h2, h3, h4⟩ := ih (forall₂_set hr i g3) _ g2
      have e : applyAll h (ds1 ++ ds) = applyAll (applyAll h ds1) ds := by unfold applyAll; rw [List.foldl_append]
      refine ⟨ds1 ++ ds, ts', wss', ?_, e ▸ h2, h3, ?_⟩
      · unfold runSched
        rw [ht]
        dsimp only
        rw [g1, Outcome.ok_bind, e]
        exact h1
      · rw [List.append_assoc]
        exact (List.Perm.append_left ds1 h4).trans (flatten_set_perm hws g4)

/-- array and offset of a write. -/
def key (w : Wr) : ℕ × ℕ := (w.1, w.2.1)

theorem apply1_comm (h : Heap) {v w : Wr} (hne : key v ≠ key w) : apply1 (apply1 h v) w = apply1 (apply1 h w) v := by
  obtain ⟨p, o, x⟩ := v
  obtain ⟨q, r, y⟩ := w
  unfold apply1
  dsimp only
  by_cases hpq : p = q
  · subst hpq
    have hor : o ≠ r := fun e => hne (by unfold key; rw [e])
    simp only [Function.update_self, Function.update_idem]
    congr 1
    cases h p with
    | none => rfl
    | some b =>
      simp only [Option.map_some, Option.some.injEq, Block.mk.injEq, true_and]
      exact Function.update_comm hor _ _ _
  · rw [Function.update_of_ne (Ne.symm hpq), Function.update_of_ne hpq, Function.update_comm hpq]

theorem applyAll_perm {ws ws' : List Wr} (hp : ws.Perm ws') : ∀ h : Heap, (ws.map key).Nodup → applyAll h ws = applyAll h ws' := by
  induction hp with
  | nil => intro h _; rfl
  | cons w _ ih =>
    intro h hn
    exact ih _ (List.nodup_cons.mp hn).2
  | swap a b l =>
    intro h hn
    show applyAll (apply1 (apply1 h b) a) l = applyAll (apply1 (apply1 h a) b) l
    rw [apply1_comm]
    intro e
    simp only [List.map_cons, List.nodup_cons, List.mem_cons, not_or] at hn
    exact hn.1.1 e
  | trans h1 h2 ih1 ih2 =>
    intro h hn
    exact (ih1 h hn).trans (ih2 h ((h1.map key).nodup_iff.mp hn))

/-- every order of the threads gives the memory in which the writes have been made one after the other. -/
theorem launch_runs {W : ℕ → Prop} {h : Heap} {ts : List (Prog Unit)} {wss : List (List Wr)}
    (hr : List.Forall₂ (fun t ws => Runs h W t ws ()) ts wss) (hn : (wss.flatten.map key).Nodup) (s : List ℕ) :
    launch s h ts = .ok (applyAll h wss.flatten) := by
  obtain ⟨ds, ts', wss', h1, h2, h3, h4⟩ := runSched_runs s hr h (.refl h)
  unfold launch
  rw [h1, Outcome.ok_bind]
  dsimp only
  rw [finishAll h3 _ h2]
  have e : applyAll (applyAll h ds) wss'.flatten = applyAll h (ds ++ wss'.flatten) := by unfold applyAll; rw [List.foldl_append]
  rw [e, applyAll_perm h4 h ((h4.map key).nodup_iff.mpr hn)]

theorem applyAll_other {ws : List Wr} {p : ℕ} (hp : ∀ w ∈ ws, w.1 ≠ p) : ∀ h : Heap, applyAll h ws p = h p := by
  induction ws with
  | nil => intro h; rfl
  | cons w ws ih =>
    intro h
    show applyAll (apply1 h w) ws p = h p
    rw [ih (fun x hx => hp x (List.mem_cons_of_mem _ hx))]
    unfold apply1
    exact Function.update_of_ne (Ne.symm (hp w (List.mem_cons_self ..))) _ _

theorem applyAll_block {ws : List Wr} {p : ℕ} :
    ∀ (h : Heap) (b : Block), h p = some b → ∃ b', applyAll h ws p = some b' ∧ b'.len = b.len ∧
      (∀ o, (∀ w ∈ ws, key w ≠ (p, o)) → b'.cell o = b.cell o) ∧
      ((ws.map key).Nodup → ∀ o v, (p, o, v) ∈ ws → b'.cell o = some v) := by
  induction ws with
  | nil => intro h b hb; exact ⟨b, hb, rfl, fun _ _ => rfl, fun _ o v hm => by simp at hm⟩
  | cons w ws ih =>
    intro h b hb
    by_cases hw : w.1 = p
    · have hb1 : apply1 h w p = some { b with cell := Function.update b.cell w.2.1 (some w.2.2) } := by
        unfold apply1
        rw [hw, Function.update_self, hb]
        rfl
      obtain ⟨b', h1, h2, h3, h4⟩ := ih _ _ hb1
      refine ⟨b', h1, h2, ?_, ?_⟩
      · intro o ho
        rw [h3 o (fun x hx => ho x (List.mem_cons_of_mem _ hx))]
        refine Function.update_of_ne ?_ _ _
        intro e
        exact ho w (List.mem_cons_self ..) (by unfold key; rw [hw, e])
      · intro hn o v hm
        rw [List.map_cons, List.nodup_cons] at hn
        rcases List.mem_cons.mp hm with hm | hm
        · subst hm
          rw [h3 o]
          · exact Function.update_self ..
          · intro x hx e
            exact hn.1 (List.mem_map.mpr ⟨x, hx, e⟩)
        · exact h4 hn.2 o v hm
    · have hb1 : apply1 h w p = some b := by
        unfold apply1
        rw [Function.update_of_ne (Ne.symm hw), hb]
      obtain ⟨b', h1, h2, h3, h4⟩ := ih _ _ hb1
      refine ⟨b', h1, h2, fun o ho => h3 o fun x hx => ho x (List.mem_cons_of_mem _ hx), ?_⟩
      intro hn o v hm
      rw [List.map_cons, List.nodup_cons] at hn
      rcases List.mem_cons.mp hm with hm | hm
      · exact absurd (by rw [← hm]) hw
      · exact h4 hn.2 o v hm

theorem Runs.writes {α : Type} {h : Heap} {W : ℕ → Prop} {t : Prog α} {ws : List Wr} {a : α} (hr : Runs h W t ws a) : ∀ w ∈ ws, W w.1 := by
  induction hr with
  | ret => intro w hw; simp at hw
  | read _ _ _ ih => exact ih
  | write hp _ _ _ ih =>
    intro w hw
    rcases List.mem_cons.mp hw with rfl | hw
    · exact hp
    · exact ih w hw

/-- composition of programs. -/
theorem Runs.bind {α β : Type} {h : Heap} {W : ℕ → Prop} {t : Prog α} {f : α → Prog β} {ws ws' : List Wr} {a : α} {b : β} (h1 : Runs h W t ws a)
    (h2 : Runs h W (f a) ws' b) : Runs h W (t >>= f) (ws ++ ws') b := by
  induction h1 with
  | ret => exact h2
  | read hp hg _ ih => exact .read hp hg (ih h2)
  | write hp hb ho _ ih => exact .write hp hb ho (ih h2)

theorem Runs.bind0 {α β : Type} {h : Heap} {W : ℕ → Prop} {t : Prog α} {f : α → Prog β} {ws' : List Wr} {a : α} {b : β} (h1 : Runs h W t [] a)
    (h2 : Runs h W (f a) ws' b) : Runs h W (t >>= f) ws' b := h1.bind h2

theorem Runs.pure {α : Type} {h : Heap} {W : ℕ → Prop} (a : α) : Runs h W (Pure.pure a : Prog α) [] a := .ret a

theorem runs_load {T : Type} [DevVal T] {h : Heap} {W : ℕ → Prop} {p o : ℕ} {x : T} (hp : ¬ W p) {v : Val} (hv : DevVal.ofVal v = some x)
    (hg : h.get p o = some v) : Runs h W (load T p o) [] x := by
  refine .read hp hg ?_
  rw [hv]
  exact .ret x

theorem runs_store {T : Type} [DevVal T] {h : Heap} {W : ℕ → Prop} {p o : ℕ} (x : T) (hp : W p) {b : Block} (hb : h p = some b) (ho : o < b.len) :
    Runs h W (store p o x) [(p, o, DevVal.toVal x)] () := .write hp hb ho (.ret ())

theorem compensatedSum_exact {T : Type} [Ring T] (v s : T) : compensatedSum v (s, 0) = (s + v, 0) := by
  unfold compensatedSum
  simp

theorem runs_compLoop_aux {T ι : Type} [Ring T] {h : Heap} {W : ℕ → Prop} (f : ι → T) (ws : ι → List Wr) {body : T × T → ι → Prog (T × T)} :
    ∀ (l : List ι) (_ : ∀ i ∈ l, ∀ s, Runs h W (body s i) (ws i) (compensatedSum (f i) s)) (s : T),
      Runs h W (l.foldlM body (s, 0)) (l.flatMap ws) (s + (l.map f).sum, 0) := by
  intro l
  induction l with
  | nil => intro _ s; simpa using Runs.pure (α := T × T) (s, 0)
  | cons i l ih =>
    intro hb s
    rw [List.foldlM_cons, List.flatMap_cons]
    refine (hb i (List.mem_cons_self ..) (s, 0)).bind ?_
    rw [compensatedSum_exact]
    have := ih (fun j hj => hb j (List.mem_cons_of_mem _ hj)) (s + f i)
    simpa [add_assoc] using this

/-- a loop that adds up `f i`. -/
theorem runs_compLoop {T ι : Type} [Ring T] {h : Heap} {W : ℕ → Prop} (f : ι → T) (ws : ι → List Wr) {body : T × T → ι → Prog (T × T)} (l : List ι)
    (hb : ∀ i ∈ l, ∀ s, Runs h W (body s i) (ws i) (compensatedSum (f i) s)) :
    Runs h W (l.foldlM body ((0, 0) : T × T)) (l.flatMap ws) ((l.map f).sum, 0) := by
  simpa using runs_compLoop_aux f ws l hb 0

theorem runs_compLoop0 {T ι : Type} [Ring T] {h : Heap} {W : ℕ → Prop} (f : ι → T) {body : T × T → ι → Prog (T × T)} (l : List ι)
    (hb : ∀ i ∈ l, ∀ s, Runs h W (body s i) [] (compensatedSum (f i) s)) :
    Runs h W (l.foldlM body ((0, 0) : T × T)) [] ((l.map f).sum, 0) := by
  have := runs_compLoop f (fun _ => []) l hb
  rwa [List.flatMap_eq_nil_iff.mpr fun _ _ => rfl] at this

theorem runs_forM {ι : Type} {h : Heap} {W : ℕ → Prop} (ws : ι → List Wr) {body : ι → Prog Unit} :
    ∀ (l : List ι) (_ : ∀ i ∈ l, Runs h W (body i) (ws i) ()), Runs h W (l.forM body) (l.flatMap ws) () := by
  intro l
  induction l with
  | nil => intro _; exact .ret ()
  | cons i l ih =>
    intro hb
    rw [List.flatMap_cons]
    exact (hb i (List.mem_cons_self ..)).bind (ih fun j hj => hb j (List.mem_cons_of_mem _ hj))

/-- the indices of a strided loop. -/
theorem strideLoop_spec (bound step : ℕ) (hs : 0 < step) (hw : bound + step ≤ 2 ^ 32) :
    ∀ (fuel i : ℕ), bound ≤ i + fuel → ∃ l, strideLoop bound step (fuel + 1) i = some l ∧ l.Nodup ∧
      ∀ j, j ∈ l ↔ i ≤ j ∧ j < bound ∧ j % step = i % step := by
  have stop : ∀ fuel i, bound ≤ i → ∃ l, strideLoop bound step (fuel + 1) i = some l ∧ l.Nodup ∧
      ∀ j, j ∈ l ↔ i ≤ j ∧ j < bound ∧ j % step = i % step := by
    intro fuel i hi
    refine ⟨[], ?_, List.nodup_nil, ?_⟩
    · unfold strideLoop
      rw [if_neg (by omega)]
    · intro j
      constructor
      · intro h; simp at h
      · intro h; omega
  intro fuel
  induction fuel with
  | zero => intro i h1; exact stop 0 i (by omega)
  | succ fuel ih =>
    intro i h1
    by_cases hi : i < bound
    · have hu : u32 (i + step) = i + step := by unfold u32; exact Nat.mod_eq_of_lt (by omega)
      obtain ⟨l, e, hn, hm⟩ := ih (i + step) (by omega)
      refine ⟨i :: l, ?_, ?_, ?_⟩
      · unfold strideLoop
        rw [if_pos hi, hu, e]
        rfl
      · rw [List.nodup_cons]
        refine ⟨fun h => ?_, hn⟩
        have := (hm i).mp h
        omega
      · intro j
        rw [List.mem_cons, hm j]
        constructor
        · rintro (rfl | ⟨a, b, c⟩)
          · exact ⟨le_refl _, hi, rfl⟩
          · exact ⟨by omega, b, by rw [c, Nat.add_mod_right]⟩
        · rintro ⟨a, b, c⟩
          by_cases hj : j = i
          · exact Or.inl hj
          · right
            refine ⟨?_, b, by rw [c, Nat.add_mod_right]⟩
            by_contra hlt
            have h2 : j = i + (j - i) := by omega
            have h3 : (j - i) % step = 0 := by
              have := Nat.sub_mod_eq_zero_of_mod_eq c
              exact this
            rw [Nat.mod_eq_of_lt (by omega)] at h3
            omega
    · exact stop _ i (by omega)

/-- the events of thread `t` of `step` threads. -/
theorem strided_spec {h : Heap} {W : ℕ → Prop} (t bound step : ℕ) (ht : t < step) (hw : bound + step ≤ 2 ^ 32) :
    ∃ l, Runs h W (strided t bound step) [] l ∧ l.Nodup ∧ (∀ j, j ∈ l ↔ j < bound ∧ j % step = t) := by
  obtain ⟨l, e, hn, hm⟩ := strideLoop_spec bound step (by omega) hw bound t (by omega)
  refine ⟨l, ?_, hn, ?_⟩
  · unfold strided
    rw [e]
    exact .ret l
  · intro j
    rw [hm j, Nat.mod_eq_of_lt ht]
    constructor
    · exact fun h => h.2
    · rintro ⟨a, b⟩
      exact ⟨b ▸ Nat.mod_le j step, a, b⟩

theorem sum_list_eq {T : Type} [AddCommMonoid T] {l : List ℕ} (hn : l.Nodup) {bound step t : ℕ} (hm : ∀ j, j ∈ l ↔ j < bound ∧ j % step = t)
    (f : ℕ → T) : (l.map f).sum = ∑ j ∈ (Finset.range bound).filter (fun j => j % step = t), f j := by
  rw [← List.sum_toFinset f hn]
  refine Finset.sum_congr ?_ fun _ _ => rfl
  ext j
  rw [List.mem_toFinset, hm j, Finset.mem_filter, Finset.mem_range]

/-- together the threads see every index once. -/
theorem sum_threads {T : Type} [AddCommMonoid T] (bound step : ℕ) (hs : 0 < step) (f : ℕ → T) :
    ∑ t ∈ Finset.range step, ∑ j ∈ (Finset.range bound).filter (fun j => j % step = t), f j = ∑ j ∈ Finset.range bound, f j := by
  refine Finset.sum_fiberwise_of_maps_to ?_ f
  intro j _
  exact Finset.mem_range.mpr (Nat.mod_lt _ hs)

end Rpwa.Cuda
