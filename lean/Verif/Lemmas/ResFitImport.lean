import Verif.Lemmas.ResFitCache

/-! # The import of the parameter array of the resonance fit -/

namespace Rpwa.ResFit

open Spec

/-- set one real number of the store -/
def Params.put (P : Params) (e : Entry) (v : ℝ) : Params :=
  match e with
  | .coupRe id k b => P.setCoup id k b ⟨v, (P.coup id k b).im⟩
  | .coupIm id k b => P.setCoup id k b ⟨(P.coup id k b).re, v⟩
  | .brRe id k => P.setBr id k ⟨v, (P.br id k).im⟩
  | .brIm id k => P.setBr id k ⟨(P.br id k).re, v⟩
  | .par id k => P.setPar id k v

theorem get_put (P : Params) (e e' : Entry) (v : ℝ) :
    entry (P.put e v) e' = if e' = e then v else entry P e' := by
  cases e <;> cases e' <;> simp only [Params.put, entry, Params.setCoup, Params.setBr, Params.setPar,
    Entry.coupRe.injEq, Entry.coupIm.injEq, Entry.brRe.injEq, Entry.brIm.injEq, Entry.par.injEq,
    reduceCtorEq, if_false]
  all_goals (split <;> rename_i h)
  all_goals first | rfl | (obtain ⟨rfl, rfl, rfl⟩ := h; rfl) | (obtain ⟨rfl, rfl⟩ := h; rfl)

theorem Params.ext_get {P P' : Params} (h : ∀ e, entry P e = entry P' e) : P = P' := by
  have h1 : P.coup = P'.coup := by
    funext i k b
    exact Complex.ext (h (.coupRe i k b)) (h (.coupIm i k b))
  have h2 : P.br = P'.br := by
    funext i k
    exact Complex.ext (h (.brRe i k)) (h (.brIm i k))
  have h3 : P.par = P'.par := by
    funext i k
    exact h (.par i k)
  cases P; cases P'; cases h1; cases h2; cases h3; rfl

theorem setCoup_eq (P : Params) (id k b : ℕ) (v : ℂ) :
    P.setCoup id k b v = (P.put (.coupRe id k b) v.re).put (.coupIm id k b) v.im := by
  refine Params.ext_get fun e => ?_
  rw [get_put, get_put]
  cases e with
  | coupRe i j l =>
    simp only [entry, Params.setCoup, Entry.coupRe.injEq, reduceCtorEq, if_false]
    split <;> rfl
  | coupIm i j l =>
    simp only [entry, Params.setCoup, Entry.coupIm.injEq, reduceCtorEq, if_false]
    split <;> rfl
  | _ => simp [entry, Params.setCoup]

theorem setBr_eq (P : Params) (id k : ℕ) (v : ℂ) :
    P.setBr id k v = (P.put (.brRe id k) v.re).put (.brIm id k) v.im := by
  refine Params.ext_get fun e => ?_
  rw [get_put, get_put]
  cases e with
  | brRe i j =>
    simp only [entry, Params.setBr, Entry.brRe.injEq, reduceCtorEq, if_false]
    split <;> rfl
  | brIm i j =>
    simp only [entry, Params.setBr, Entry.brIm.injEq, reduceCtorEq, if_false]
    split <;> rfl
  | _ => simp [entry, Params.setBr]

theorem setCoup_same (P : Params) (id k b : ℕ) : P.setCoup id k b (P.coup id k b) = P := by
  refine Params.ext_get fun e => ?_
  cases e <;> simp only [entry, Params.setCoup]
  all_goals (split <;> rename_i h)
  all_goals first | rfl | (obtain ⟨rfl, rfl, rfl⟩ := h; rfl)

theorem setBr_same (P : Params) (id k : ℕ) : P.setBr id k (P.br id k) = P := by
  refine Params.ext_get fun e => ?_
  cases e <;> simp only [entry, Params.setBr]
  all_goals (split <;> rename_i h)
  all_goals first | rfl | (obtain ⟨rfl, rfl⟩ := h; rfl)

theorem setPar_same (P : Params) (id k : ℕ) : P.setPar id k (P.par id k) = P := by
  refine Params.ext_get fun e => ?_
  cases e <;> simp only [entry, Params.setPar]
  all_goals (split <;> rename_i h)
  all_goals first | rfl | (obtain ⟨rfl, rfl⟩ := h; rfl)

/-! ## scripts -/

/-- one step of an import: read the next number of the array, or set a constant -/
inductive Cmd where
  | read (e : Entry)
  | const (e : Entry) (v : ℝ)

/-- the entry set by a step -/
def Cmd.key : Cmd → Entry
  | .read e => e
  | .const e _ => e

/-- execution of one step -/
def exec (par : ℕ → ℝ) (s : ℕ × Params) : Cmd → ℕ × Params
  | .read e => (s.1 + 1, s.2.put e (par s.1))
  | .const e v => (s.1, s.2.put e v)

/-- execution of a script -/
def run (par : ℕ → ℝ) (s : ℕ × Params) (l : List Cmd) : ℕ × Params := l.foldl (exec par) s

/-- the entries read by a script -/
def reads (l : List Cmd) : List Entry :=
  l.filterMap fun c => match c with
    | .read e => some e
    | .const _ _ => none

/-- counter and store of an import -/
def view (a : ℕ × St) : ℕ × Params := (a.1, a.2.P)

theorem run_append (par : ℕ → ℝ) (s : ℕ × Params) (l l' : List Cmd) :
    run par s (l ++ l') = run par (run par s l) l' := List.foldl_append

theorem run_shift (par : ℕ → ℝ) (a n : ℕ) (P : Params) (l : List Cmd) :
    (a + (run (fun i => par (a + i)) (n, P) l).1, (run (fun i => par (a + i)) (n, P) l).2)
      = run par (a + n, P) l := by
  induction l generalizing n P with
  | nil => rfl
  | cons c l ih =>
    cases c with
    | read e =>
      unfold run at ih ⊢
      rw [List.foldl_cons, List.foldl_cons]
      exact ih (n + 1) (P.put e (par (a + n)))
    | const e v =>
      unfold run at ih ⊢
      rw [List.foldl_cons, List.foldl_cons]
      exact ih n (P.put e v)

theorem run_foldl {α : Type} (par : ℕ → ℝ) (f : ℕ × St → α → ℕ × St) (script : α → List Cmd)
    (l : List α) (hf : ∀ x ∈ l, ∀ acc, view (f acc x) = run par (view acc) (script x))
    (acc : ℕ × St) : view (l.foldl f acc) = run par (view acc) (l.flatMap script) := by
  induction l generalizing acc with
  | nil => rfl
  | cons x l ih =>
    rw [List.foldl_cons, List.flatMap_cons, run_append, ← hf x List.mem_cons_self acc]
    exact ih (fun y hy => hf y (List.mem_cons_of_mem _ hy)) (f acc x)

/-- script of the couplings of a component -/
def coupScript (c : Component) : List Cmd :=
  (List.range c.maps.nrCoup).flatMap fun k =>
    (c.coupBins k).flatMap fun b => [.read (.coupRe c.id k b), .read (.coupIm c.id k b)]

/-- script of the branchings of a component -/
def brScript (c : Component) : List Cmd :=
  (List.range c.maps.nrBr).flatMap fun k =>
    if c.maps.brFixed.getD k false then [.const (.brRe c.id k) 1, .const (.brIm c.id k) 0]
    else [.read (.brRe c.id k), .read (.brIm c.id k)]

/-- script of the shape parameters of a component -/
def parScript (c : Component) : List Cmd :=
  (List.range c.shape.nrParams).map fun k => .read (.par c.id k)

/-- script of the final-state mass dependence -/
def fsmdScript (f : Fsmd) : List Cmd :=
  (List.range f.nrFn).flatMap fun b =>
    (List.range (f.fn b).npar).map fun j => .read (.par f.id (f.parIndex.getD b 0 + j))

/-- the whole import -/
def script (M : Model) : List Cmd :=
  M.comps.flatMap coupScript ++ M.comps.flatMap brScript ++ M.comps.flatMap parScript
    ++ (match M.fsmd with
      | none => []
      | some f => fsmdScript f)

theorem coupStep_view (c : Component) (par : ℕ → ℝ) (k b : ℕ) (acc : ℕ × St) :
    view (coupStep c par k acc b)
      = run par (view acc) [.read (.coupRe c.id k b), .read (.coupIm c.id k b)] := by
  have : run par (view acc) [.read (.coupRe c.id k b), .read (.coupIm c.id k b)]
      = (acc.1 + 2, acc.2.P.setCoup c.id k b ⟨par acc.1, par (acc.1 + 1)⟩) := by
    rw [setCoup_eq]; rfl
  rw [this]
  unfold coupStep view
  dsimp only
  split
  · rename_i e
    rw [← e, setCoup_same]
  · rfl

theorem importCouplings_view (c : Component) (par : ℕ → ℝ) (st : St) :
    view (importCouplings c par st) = run par (0, st.P) (coupScript c) :=
  run_foldl par (fun acc k => (c.coupBins k).foldl (coupStep c par k) acc)
    (fun k => (c.coupBins k).flatMap fun b => [.read (.coupRe c.id k b), .read (.coupIm c.id k b)])
    (List.range c.maps.nrCoup) (fun k _ acc => run_foldl par (coupStep c par k)
      (fun b => [.read (.coupRe c.id k b), .read (.coupIm c.id k b)]) (c.coupBins k)
      (fun b _ acc => coupStep_view c par k b acc) acc) (0, st)

theorem brStep_view (c : Component) (par : ℕ → ℝ) (k : ℕ) (acc : ℕ × St) :
    view (brStep c par acc k) = run par (view acc)
      (if c.maps.brFixed.getD k false then [.const (.brRe c.id k) 1, .const (.brIm c.id k) 0]
        else [.read (.brRe c.id k), .read (.brIm c.id k)]) := by
  unfold brStep view
  dsimp only
  cases c.maps.brFixed.getD k false with
  | true =>
    rw [if_pos rfl, if_pos rfl, if_pos rfl]
    have : run par (acc.1, acc.2.P) [.const (.brRe c.id k) 1, .const (.brIm c.id k) 0]
        = (acc.1, acc.2.P.setBr c.id k ⟨1, 0⟩) := by
      rw [setBr_eq]; rfl
    rw [this]
    split
    · rename_i e; rw [← e, setBr_same]
    · rfl
  | false =>
    have hff : ¬ (false = true) := by decide
    rw [if_neg hff, if_neg hff, if_neg hff]
    have : run par (acc.1, acc.2.P) [.read (.brRe c.id k), .read (.brIm c.id k)]
        = (acc.1 + 2, acc.2.P.setBr c.id k ⟨par acc.1, par (acc.1 + 1)⟩) := by
      rw [setBr_eq]; rfl
    rw [this]
    split
    · rename_i e; rw [← e, setBr_same]
    · rfl

theorem importBranchings_view (c : Component) (par : ℕ → ℝ) (st : St) :
    view (importBranchings c par st) = run par (0, st.P) (brScript c) :=
  run_foldl par _ _ _ (fun k _ acc => brStep_view c par k acc) (0, st)

theorem storePars_run (id first n : ℕ) (par : ℕ → ℝ) (P : Params) :
    (first + n, (storePars id first n par P).2)
      = run par (first, P) ((List.range n).map fun j => .read (.par id (first + j))) := by
  unfold storePars
  induction n with
  | zero => rfl
  | succ n ih =>
    rw [List.range_succ, List.foldl_append, List.map_append, run_append, ← ih]
    simp only [List.foldl_cons, List.foldl_nil, List.map_cons, List.map_nil]
    generalize (List.foldl _ _ _) = r
    show _ = (first + n + 1, r.2.setPar id (first + n) (par (first + n)))
    split
    · rename_i e
      rw [← e, setPar_same]; rfl
    · rfl

theorem importParameters_view (c : Component) (par : ℕ → ℝ) (st : St) :
    view (importParameters c par st) = run par (0, st.P) (parScript c) := by
  have := storePars_run c.id 0 c.shape.nrParams par st.P
  unfold parScript
  simp only [Nat.zero_add] at this
  rw [← this]
  rfl

/-- the index of the first parameter of a function is the number of those before it -/
structure FsmdOk (f : Fsmd) : Prop where
  index : ∀ b < f.nrFn, f.parIndex.getD b 0
    = ((List.range b).map fun i => (f.fn i).npar).sum

theorem fsmd_view {f : Fsmd} (hf : FsmdOk f) (par : ℕ → ℝ) (st : St) :
    view (f.importParameters par st) = run par (0, st.P) (fsmdScript f) := by
  unfold Fsmd.importParameters fsmdScript
  have : ∀ n ≤ f.nrFn, view ((List.range n).foldl (fsmdStep f par) (0, st))
      = run par (0, st.P) ((List.range n).flatMap fun b =>
        (List.range (f.fn b).npar).map fun j => .read (.par f.id (f.parIndex.getD b 0 + j))) ∧
      ((List.range n).foldl (fsmdStep f par) (0, st)).1
        = ((List.range n).map fun i => (f.fn i).npar).sum := by
    intro n
    induction n with
    | zero => intro _; exact ⟨rfl, rfl⟩
    | succ n ih =>
      intro hn
      obtain ⟨i1, i2⟩ := ih (by omega)
      rw [List.range_succ, List.foldl_append, List.flatMap_append, run_append, ← i1]
      simp only [List.foldl_cons, List.foldl_nil, List.flatMap_cons, List.flatMap_nil,
        List.append_nil, List.map_append, List.map_cons, List.map_nil, List.sum_append,
        List.sum_cons, List.sum_nil, Nat.add_zero]
      generalize (List.foldl _ _ _) = r at i1 i2 ⊢
      refine ⟨?_, ?_⟩
      · have h1 := storePars_run f.id (f.parIndex.getD n 0) (f.fn n).npar par r.2.P
        have h2 : r.1 = f.parIndex.getD n 0 := by rw [i2, hf.index n (by omega)]
        have h3 : view r = (f.parIndex.getD n 0, r.2.P) := by unfold view; rw [h2]
        rw [h3, ← h1]
        unfold fsmdStep view
        dsimp only
        rw [h2]
      · unfold fsmdStep; dsimp only; rw [i2]
  exact (this _ le_rfl).1

theorem importLoop_view (imp : Component → (ℕ → ℝ) → St → ℕ × St) (scr : Component → List Cmd)
    (h : ∀ c par st, view (imp c par st) = run par (0, st.P) (scr c)) (comps : List Component)
    (par : ℕ → ℝ) (acc : ℕ × St) :
    view (importLoop imp comps par acc) = run par (view acc) (comps.flatMap scr) := by
  unfold importLoop
  refine run_foldl par _ _ _ (fun c _ acc => ?_) acc
  dsimp only
  have h1 := h c (fun i => par (acc.1 + i)) acc.2
  have h2 := run_shift par acc.1 0 acc.2.P (scr c)
  rw [← h1] at h2
  exact h2

/-- the import executes the script -/
theorem importAll_view {M : Model} (hf : ∀ f, M.fsmd = some f → FsmdOk f) (par : ℕ → ℝ) (st : St) :
    view (M.importAll par st) = run par (0, st.P) (script M) := by
  unfold Model.importAll script
  dsimp only
  rw [run_append, run_append, run_append]
  have e1 := importLoop_view importCouplings coupScript importCouplings_view M.comps par (0, st)
  have e2 := importLoop_view importBranchings brScript importBranchings_view M.comps par
    (importLoop importCouplings M.comps par (0, st))
  have e3 := importLoop_view importParameters parScript importParameters_view M.comps par
    (importLoop importBranchings M.comps par (importLoop importCouplings M.comps par (0, st)))
  rw [e2, e1] at e3
  cases h : M.fsmd with
  | none => exact e3
  | some f =>
    dsimp only
    generalize importLoop importParameters M.comps par
      (importLoop importBranchings M.comps par (importLoop importCouplings M.comps par (0, st)))
      = r at e3 ⊢
    have h1 := fsmd_view (hf f h) (fun i => par (r.1 + i)) r.2
    have h2 := run_shift par r.1 0 r.2.P (fsmdScript f)
    rw [← h1] at h2
    refine h2.trans ?_
    show run par (view r) (fsmdScript f) = _
    rw [e3]; rfl

/-! ## reading the result of a script -/

theorem run_count (par : ℕ → ℝ) (n : ℕ) (P : Params) (l : List Cmd) :
    (run par (n, P) l).1 = n + (reads l).length := by
  induction l generalizing n P with
  | nil => rfl
  | cons c l ih =>
    cases c with
    | read e =>
      refine (ih (n + 1) (P.put e (par n))).trans ?_
      show n + 1 + (reads l).length = n + ((reads l).length + 1)
      omega
    | const e v => exact ih n (P.put e v)

theorem mem_reads {l : List Cmd} {e : Entry} : e ∈ reads l ↔ Cmd.read e ∈ l := by
  unfold reads
  rw [List.mem_filterMap]
  constructor
  · rintro ⟨c, hc, h⟩
    cases c with
    | read e' => cases h; exact hc
    | const _ _ => cases h
  · intro h
    exact ⟨_, h, rfl⟩

/-- value of an entry after the execution of a script with distinct entries -/
theorem get_run (par : ℕ → ℝ) (l : List Cmd) (hl : (l.map Cmd.key).Nodup) (n : ℕ) (P : Params)
    (e : Entry) :
    (e ∈ reads l → entry (run par (n, P) l).2 e = par (n + (reads l).idxOf e)) ∧
    (∀ v, Cmd.const e v ∈ l → entry (run par (n, P) l).2 e = v) ∧
    (e ∉ l.map Cmd.key → entry (run par (n, P) l).2 e = entry P e) := by
  induction l generalizing n P with
  | nil =>
    refine ⟨?_, ?_, fun _ => rfl⟩
    · intro h; cases h
    · intro v h; cases h
  | cons c l ih =>
    rw [List.map_cons, List.nodup_cons] at hl
    obtain ⟨hc, hl⟩ := hl
    cases c with
    | read e' =>
      obtain ⟨i1, i2, i3⟩ := ih hl (n + 1) (P.put e' (par n))
      have hr : reads (Cmd.read e' :: l) = e' :: reads l := rfl
      have hstep : run par (n, P) (Cmd.read e' :: l) = run par (n + 1, P.put e' (par n)) l := rfl
      rw [hr, hstep]
      refine ⟨?_, ?_, ?_⟩
      · intro he
        by_cases e0 : e = e'
        · subst e0
          rw [i3 hc, get_put, if_pos rfl, List.idxOf_cons_self, Nat.add_zero]
        · have : e ∈ reads l := by
            rcases List.mem_cons.mp he with h | h
            · exact absurd h e0
            · exact h
          rw [i1 this, List.idxOf_cons_ne _ (fun h => e0 h.symm)]
          congr 1; omega
      · intro v hv
        rcases List.mem_cons.mp hv with h | h
        · cases h
        · exact i2 v h
      · intro he
        rw [List.map_cons, List.mem_cons, not_or] at he
        rw [i3 he.2, get_put]
        exact if_neg he.1
    | const e' v' =>
      obtain ⟨i1, i2, i3⟩ := ih hl n (P.put e' v')
      have hr : reads (Cmd.const e' v' :: l) = reads l := rfl
      have hstep : run par (n, P) (Cmd.const e' v' :: l) = run par (n, P.put e' v') l := rfl
      rw [hr, hstep]
      refine ⟨i1, ?_, ?_⟩
      · intro v hv
        rcases List.mem_cons.mp hv with h | h
        · cases h
          rw [i3 hc, get_put, if_pos rfl]
        · exact i2 v h
      · intro he
        rw [List.map_cons, List.mem_cons, not_or] at he
        rw [i3 he.2, get_put]
        exact if_neg he.1

theorem reads_append (l l' : List Cmd) : reads (l ++ l') = reads l ++ reads l' :=
  List.filterMap_append

theorem reads_flatMap {α : Type} (f : α → List Cmd) (l : List α) :
    reads (l.flatMap f) = l.flatMap fun x => reads (f x) := by
  induction l with
  | nil => rfl
  | cons x l ih => rw [List.flatMap_cons, reads_append, ih, List.flatMap_cons]

theorem reads_coup (c : Component) : reads (coupScript c) = coupEntries c := by
  unfold coupScript coupEntries
  rw [reads_flatMap]
  congr 1
  funext k
  rw [reads_flatMap]
  rfl

theorem reads_br (c : Component) : reads (brScript c) = brEntries c := by
  unfold brScript brEntries
  rw [reads_flatMap]
  congr 1
  funext k
  split <;> rfl

theorem reads_map_read {α : Type} (g : α → Entry) (l : List α) :
    reads (l.map fun x => Cmd.read (g x)) = l.map g := by
  induction l with
  | nil => rfl
  | cons x l ih =>
    show g x :: reads (l.map fun x => Cmd.read (g x)) = _
    rw [ih]; rfl

theorem reads_script (M : Model) : reads (script M) = layout M := by
  unfold script layout
  rw [reads_append, reads_append, reads_append, reads_flatMap, reads_flatMap, reads_flatMap]
  congr 1
  · congr 1
    · congr 1
      · congr 1; funext c; exact reads_coup c
      · congr 1; funext c; exact reads_br c
    · congr 1; funext c; exact reads_map_read _ _
  · cases M.fsmd with
    | none => rfl
    | some f =>
      dsimp only
      unfold fsmdScript fsmdEntries
      rw [reads_flatMap]
      congr 1
      funext b
      exact reads_map_read _ _

/-! ## the entries are distinct -/

/-- all entries touched by the import -/
theorem keys_script (M : Model) : (script M).map Cmd.key =
    M.comps.flatMap coupEntries
    ++ (M.comps.flatMap fun c => (List.range c.maps.nrBr).flatMap fun k =>
        [.brRe c.id k, .brIm c.id k])
    ++ M.comps.flatMap parEntries
    ++ (match M.fsmd with
      | none => []
      | some f => fsmdEntries f) := by
  unfold script
  rw [List.map_append, List.map_append, List.map_append, List.map_flatMap, List.map_flatMap,
    List.map_flatMap]
  congr 1
  · congr 1
    · congr 1
      · congr 1; funext c
        unfold coupScript coupEntries
        rw [List.map_flatMap]
        congr 1; funext k
        rw [List.map_flatMap]
        rfl
      · congr 1; funext c
        unfold brScript
        rw [List.map_flatMap]
        congr 1; funext k
        split <;> rfl
    · congr 1; funext c
      unfold parScript parEntries
      rw [List.map_map]; rfl
  · cases M.fsmd with
    | none => rfl
    | some f =>
      dsimp only
      unfold fsmdScript fsmdEntries
      rw [List.map_flatMap]
      congr 1; funext b
      rw [List.map_map]; rfl

theorem mem_coupEntries {c : Component} {e : Entry} : e ∈ coupEntries c ↔
    ∃ k < c.maps.nrCoup, ∃ b ∈ c.coupBins k, e = .coupRe c.id k b ∨ e = .coupIm c.id k b := by
  unfold coupEntries
  simp only [List.mem_flatMap, List.mem_range, List.mem_cons, List.not_mem_nil, or_false]

theorem mem_parEntries {c : Component} {e : Entry} : e ∈ parEntries c ↔
    ∃ k < c.shape.nrParams, e = .par c.id k := by
  unfold parEntries
  simp only [List.mem_map, List.mem_range, eq_comm]

theorem mem_fsmdEntries {f : Fsmd} {e : Entry} : e ∈ fsmdEntries f ↔
    ∃ b < f.nrFn, ∃ j < (f.fn b).npar, e = .par f.id (f.parIndex.getD b 0 + j) := by
  unfold fsmdEntries
  simp only [List.mem_flatMap, List.mem_map, List.mem_range, eq_comm]

theorem channel_bins_nodup (ch : Channel) : ch.bins.Nodup :=
  List.Nodup.filter _ List.nodup_range

theorem nodup_flatMap_of {α β : Type} {l : List α} (hl : l.Nodup) {f : α → List β}
    (h1 : ∀ x ∈ l, (f x).Nodup) (h2 : ∀ x ∈ l, ∀ y ∈ l, x ≠ y → ∀ z ∈ f x, z ∉ f y) :
    (l.flatMap f).Nodup := by
  induction l with
  | nil => exact List.nodup_nil
  | cons x l ih =>
    rw [List.nodup_cons] at hl
    rw [List.flatMap_cons, List.nodup_append]
    refine ⟨h1 x List.mem_cons_self, ih hl.2 (fun y hy => h1 y (List.mem_cons_of_mem _ hy))
      (fun y hy z hz => h2 y (List.mem_cons_of_mem _ hy) z (List.mem_cons_of_mem _ hz)), ?_⟩
    intro z hz z' hz' e
    subst e
    obtain ⟨y, hy, hzy⟩ := List.mem_flatMap.mp hz'
    exact h2 x List.mem_cons_self y (List.mem_cons_of_mem _ hy) (fun e => hl.1 (e ▸ hy)) z hz hzy

/-- the ranges of the parameters of the functions do not overlap -/
theorem FsmdOk.disj {f : Fsmd} (hf : FsmdOk f) {b b' : ℕ} (h : b < b') (hb' : b' < f.nrFn)
    {j : ℕ} (hj : j < (f.fn b).npar) : f.parIndex.getD b 0 + j < f.parIndex.getD b' 0 := by
  rw [hf.index b (by omega), hf.index b' hb']
  have : ∀ n, b < n → ((List.range b).map fun i => (f.fn i).npar).sum + (f.fn b).npar
      ≤ ((List.range n).map fun i => (f.fn i).npar).sum := by
    intro n
    induction n with
    | zero => intro h; omega
    | succ n ih =>
      intro h
      rw [List.range_succ, List.map_append, List.sum_append]
      simp only [List.map_cons, List.map_nil, List.sum_cons, List.sum_nil, Nat.add_zero]
      rcases Nat.lt_succ_iff_lt_or_eq.mp h with h | rfl
      · have := ih h; omega
      · omega
  have := this b' h
  omega

theorem keys_nodup {M : Model} (wf : WF M) (hf : ∀ f, M.fsmd = some f → FsmdOk f) :
    ((script M).map Cmd.key).Nodup := by
  have hcomps : M.comps.Nodup := List.Nodup.of_map _ wf.ids
  rw [keys_script]
  have A : (M.comps.flatMap coupEntries).Nodup := by
    refine nodup_flatMap_of hcomps ?_ ?_
    · intro c _
      refine nodup_flatMap_of List.nodup_range ?_ ?_
      · intro k _
        refine nodup_flatMap_of (channel_bins_nodup _) ?_ ?_
        · intro b _; simp
        · intro b _ b' _ hne z hz
          simp only [List.mem_cons, List.not_mem_nil, or_false] at hz ⊢
          rcases hz with rfl | rfl <;> simp [hne]
      · intro k _ k' _ hne z hz hz'
        simp only [List.mem_flatMap, List.mem_cons, List.not_mem_nil, or_false] at hz hz'
        obtain ⟨b, _, hz⟩ := hz
        obtain ⟨b', _, hz'⟩ := hz'
        rcases hz with rfl | rfl <;> rcases hz' with h | h <;> simp [hne] at h
    · intro c hc c' hc' hne z hz hz'
      obtain ⟨k, _, b, _, hz⟩ := mem_coupEntries.mp hz
      obtain ⟨k', _, b', _, hz'⟩ := mem_coupEntries.mp hz'
      have hid : c.id ≠ c'.id := fun e => hne (wf.eq_of_id hc hc' e)
      rcases hz with rfl | rfl <;> rcases hz' with h | h <;> simp [hid] at h
  have B : (M.comps.flatMap fun c => (List.range c.maps.nrBr).flatMap fun k =>
      [Entry.brRe c.id k, .brIm c.id k]).Nodup := by
    refine nodup_flatMap_of hcomps ?_ ?_
    · intro c _
      refine nodup_flatMap_of List.nodup_range (fun k _ => by simp) ?_
      intro k _ k' _ hne z hz hz'
      simp only [List.mem_cons, List.not_mem_nil, or_false] at hz hz'
      rcases hz with rfl | rfl <;> rcases hz' with h | h <;> simp [hne] at h
    · intro c hc c' hc' hne z hz hz'
      simp only [List.mem_flatMap, List.mem_cons, List.not_mem_nil, or_false] at hz hz'
      obtain ⟨k, _, hz⟩ := hz
      obtain ⟨k', _, hz'⟩ := hz'
      have hid : c.id ≠ c'.id := fun e => hne (wf.eq_of_id hc hc' e)
      rcases hz with rfl | rfl <;> rcases hz' with h | h <;> simp [hid] at h
  have C : (M.comps.flatMap parEntries).Nodup := by
    refine nodup_flatMap_of hcomps ?_ ?_
    · intro c _
      unfold parEntries
      refine List.Nodup.map_on (fun k _ k' _ e => ?_) List.nodup_range
      cases e; rfl
    · intro c hc c' hc' hne z hz hz'
      obtain ⟨k, _, rfl⟩ := mem_parEntries.mp hz
      obtain ⟨k', _, hz'⟩ := mem_parEntries.mp hz'
      have hid : c.id ≠ c'.id := fun e => hne (wf.eq_of_id hc hc' e)
      simp [hid] at hz'
  have AB : (M.comps.flatMap coupEntries ++ (M.comps.flatMap fun c =>
      (List.range c.maps.nrBr).flatMap fun k => [Entry.brRe c.id k, .brIm c.id k])).Nodup := by
    rw [List.nodup_append]
    refine ⟨A, B, ?_⟩
    intro z hz z' hz' e
    subst e
    obtain ⟨c, _, hz⟩ := List.mem_flatMap.mp hz
    obtain ⟨k, _, b, _, hz⟩ := mem_coupEntries.mp hz
    simp only [List.mem_flatMap, List.mem_cons, List.not_mem_nil, or_false] at hz'
    obtain ⟨_, _, _, _, hz'⟩ := hz'
    rcases hz with rfl | rfl <;> rcases hz' with h | h <;> cases h
  have ABC : (M.comps.flatMap coupEntries ++ (M.comps.flatMap fun c =>
      (List.range c.maps.nrBr).flatMap fun k => [Entry.brRe c.id k, .brIm c.id k])
      ++ M.comps.flatMap parEntries).Nodup := by
    rw [List.nodup_append]
    refine ⟨AB, C, ?_⟩
    intro z hz z' hz' e
    subst e
    obtain ⟨c, _, hz'⟩ := List.mem_flatMap.mp hz'
    obtain ⟨k, _, rfl⟩ := mem_parEntries.mp hz'
    rcases List.mem_append.mp hz with hz | hz
    · obtain ⟨c, _, hz⟩ := List.mem_flatMap.mp hz
      obtain ⟨k, _, b, _, hz⟩ := mem_coupEntries.mp hz
      rcases hz with h | h <;> cases h
    · simp only [List.mem_flatMap, List.mem_cons, List.not_mem_nil, or_false] at hz
      obtain ⟨_, _, _, _, h | h⟩ := hz <;> cases h
  rw [List.nodup_append]
  refine ⟨ABC, ?_, ?_⟩
  · cases hm : M.fsmd with
    | none => exact List.nodup_nil
    | some f =>
      dsimp only
      refine nodup_flatMap_of List.nodup_range ?_ ?_
      · intro b _
        refine List.Nodup.map_on (fun k _ k' _ e => ?_) List.nodup_range
        simp only [Entry.par.injEq, true_and] at e
        omega
      · intro b hb b' hb' hne z hz hz'
        simp only [List.mem_map, List.mem_range] at hz hz' hb hb'
        obtain ⟨j, hj, rfl⟩ := hz
        obtain ⟨j', hj', e⟩ := hz'
        simp only [Entry.par.injEq, true_and] at e
        rcases Nat.lt_or_gt_of_ne hne with h | h
        · have := (hf f hm).disj h hb' hj; omega
        · have := (hf f hm).disj h hb hj'; omega
  · intro z hz z' hz' e
    subst e
    cases hm : M.fsmd with
    | none => rw [hm] at hz'; cases hz'
    | some f =>
      rw [hm] at hz'
      obtain ⟨b, _, j, _, rfl⟩ := mem_fsmdEntries.mp hz'
      rcases List.mem_append.mp hz with hz | hz
      · rcases List.mem_append.mp hz with hz | hz
        · obtain ⟨c, _, hz⟩ := List.mem_flatMap.mp hz
          obtain ⟨k, _, b, _, hz⟩ := mem_coupEntries.mp hz
          rcases hz with h | h <;> cases h
        · simp only [List.mem_flatMap, List.mem_cons, List.not_mem_nil, or_false] at hz
          obtain ⟨_, _, _, _, h | h⟩ := hz <;> cases h
      · obtain ⟨c, hc, hz⟩ := List.mem_flatMap.mp hz
        obtain ⟨k, _, e⟩ := mem_parEntries.mp hz
        simp only [Entry.par.injEq] at e
        exact wf.fsmdId f hm c hc e.1.symm

/-- the stored parameters after an import, for any store that has only been used with this model -/
theorem importAll_get {M : Model} (wf : WF M) (hf : ∀ f, M.fsmd = some f → FsmdOk f)
    (par : ℕ → ℝ) (st : St) (h0 : ∀ e, e ∉ (script M).map Cmd.key → entry st.P e = 0) (e : Entry) :
    entry (M.importAll par st).2.P e = valueOf M par e := by
  have hv := importAll_view hf par st
  have hP : (M.importAll par st).2.P = (run par (0, st.P) (script M)).2 := congrArg Prod.snd hv
  obtain ⟨g1, g2, g3⟩ := get_run par (script M) (keys_nodup wf hf) 0 st.P e
  rw [hP]
  unfold valueOf
  rw [← reads_script]
  by_cases e1 : e ∈ reads (script M)
  · rw [if_pos e1, g1 e1, Nat.zero_add]
  · rw [if_neg e1]
    by_cases e2 : e ∈ (script M).map Cmd.key
    · -- a constant
      obtain ⟨c, hc, rfl⟩ := List.mem_map.mp e2
      cases c with
      | read e' => exact absurd (mem_reads.mpr hc) e1
      | const e' v =>
        change entry _ (Cmd.const e' v).key = _
        rw [g2 v hc]
        have hin : ∃ c ∈ M.comps, Cmd.const e' v ∈ brScript c := by
          unfold script at hc
          rcases List.mem_append.mp hc with hc | hc
          · rcases List.mem_append.mp hc with hc | hc
            · rcases List.mem_append.mp hc with hc | hc
              · obtain ⟨c, _, hc⟩ := List.mem_flatMap.mp hc
                unfold coupScript at hc
                simp only [List.mem_flatMap, List.mem_cons, List.not_mem_nil, or_false,
                  reduceCtorEq, and_false, exists_const] at hc
              · exact List.mem_flatMap.mp hc
            · obtain ⟨c, _, hc⟩ := List.mem_flatMap.mp hc
              unfold parScript at hc
              simp at hc
          · cases hm : M.fsmd with
            | none => rw [hm] at hc; cases hc
            | some f =>
              rw [hm] at hc
              simp [fsmdScript] at hc
        obtain ⟨c, hcm, hc⟩ := hin
        unfold brScript at hc
        obtain ⟨k, hk, hc⟩ := List.mem_flatMap.mp hc
        have hk := List.mem_range.mp hk
        by_cases hfix : c.maps.brFixed.getD k false = true
        · rw [if_pos hfix] at hc
          simp only [List.mem_cons, List.not_mem_nil, or_false] at hc
          rcases hc with hc | hc
          · cases hc
            rw [if_pos ⟨c, hcm, k, hk, hfix, rfl⟩]
          · cases hc
            rw [if_neg]
            rintro ⟨_, _, _, _, _, h⟩
            cases h
        · rw [if_neg hfix] at hc
          simp at hc
    · rw [g3 e2, h0 e e2, if_neg]
      rintro ⟨c, hcm, k, hk, _, rfl⟩
      refine e2 ?_
      rw [keys_script]
      refine List.mem_append_left _ (List.mem_append_left _ (List.mem_append_right _ ?_))
      exact List.mem_flatMap.mpr ⟨c, hcm, List.mem_flatMap.mpr ⟨k, List.mem_range.mpr hk, by simp⟩⟩

theorem importAll_params {M : Model} (wf : WF M) (hf : ∀ f, M.fsmd = some f → FsmdOk f)
    (par : ℕ → ℝ) (st : St) (h0 : ∀ e, e ∉ (script M).map Cmd.key → entry st.P e = 0) :
    (M.importAll par st).2.P = paramsOf M par := by
  refine Params.ext_get fun e => ?_
  rw [importAll_get wf hf par st h0 e]
  cases e <;> rfl

/-- numbers that are not imported stay as they are -/
theorem importAll_rest {M : Model} (wf : WF M) (hf : ∀ f, M.fsmd = some f → FsmdOk f)
    (par : ℕ → ℝ) (st : St) (e : Entry) (he : e ∉ (script M).map Cmd.key) :
    entry (M.importAll par st).2.P e = entry st.P e := by
  have hv := importAll_view hf par st
  have hP : (M.importAll par st).2.P = (run par (0, st.P) (script M)).2 := congrArg Prod.snd hv
  rw [hP]
  exact (get_run par (script M) (keys_nodup wf hf) 0 st.P e).2.2 he

theorem importAll_count {M : Model} (hf : ∀ f, M.fsmd = some f → FsmdOk f) (par : ℕ → ℝ) (st : St) :
    (M.importAll par st).1 = (layout M).length := by
  have hv := importAll_view hf par st
  have : (M.importAll par st).1 = (run par (0, st.P) (script M)).1 := congrArg Prod.fst hv
  rw [this, run_count, reads_script, Nat.zero_add]

/-! ## the number of parameters -/

theorem foldl_add_sum {α : Type} (g : α → ℕ) (l : List α) (n : ℕ) :
    l.foldl (fun n x => n + g x) n = n + (l.map g).sum := by
  induction l generalizing n with
  | nil => rfl
  | cons x l ih => rw [List.foldl_cons, ih, List.map_cons, List.sum_cons, Nat.add_assoc]

theorem length_flatMap_sum {α β : Type} (f : α → List β) (l : List α) :
    (l.flatMap f).length = (l.map fun x => (f x).length).sum := by
  induction l with
  | nil => rfl
  | cons x l ih => rw [List.flatMap_cons, List.length_append, ih, List.map_cons, List.sum_cons]

theorem length_flatMap_two {α β : Type} (f g : α → β) (l : List α) :
    (l.flatMap fun x => [f x, g x]).length = 2 * l.length := by
  induction l with
  | nil => rfl
  | cons x l ih => rw [List.flatMap_cons, List.length_append, ih]; simp only [List.length_cons,
      List.length_nil]; omega

theorem foldl_br (fixed : ℕ → Bool) (l : List ℕ) (n : ℕ) :
    l.foldl (fun n k => if fixed k then n else n + 2) n
      = n + (l.map fun k => if fixed k then 0 else 2).sum := by
  induction l generalizing n with
  | nil => rfl
  | cons k l ih =>
    rw [List.foldl_cons, ih, List.map_cons, List.sum_cons]
    cases fixed k <;> simp [Nat.add_assoc]

/-- the number of parameters of the model is the length of the layout -/
theorem nrParameters_eq (M : Model) : M.nrParameters = (layout M).length := by
  unfold Model.nrParameters layout
  rw [List.length_append]
  congr 1
  · rw [List.length_append, List.length_append, length_flatMap_sum, length_flatMap_sum,
      length_flatMap_sum]
    have : ∀ (l : List Component) (n : ℕ), l.foldl (fun n c =>
        (List.range c.maps.nrBr).foldl (fun n k => if c.maps.brFixed.getD k false then n else n + 2)
          ((List.range c.maps.nrCoup).foldl (fun n k => n + 2 * (c.coupBins k).length)
            (n + c.shape.nrParams))) n
        = n + (l.map fun c => (coupEntries c).length).sum + (l.map fun c => (brEntries c).length).sum
          + (l.map fun c => (parEntries c).length).sum := by
      intro l
      induction l with
      | nil => intro n; rfl
      | cons c l ih =>
        intro n
        rw [List.foldl_cons, ih, foldl_br, foldl_add_sum]
        simp only [List.map_cons, List.sum_cons]
        have h1 : (coupEntries c).length
            = ((List.range c.maps.nrCoup).map fun k => 2 * (c.coupBins k).length).sum := by
          unfold coupEntries
          rw [length_flatMap_sum]
          congr 1
          refine List.map_congr_left fun k _ => length_flatMap_two _ _ _
        have h2 : (brEntries c).length = ((List.range c.maps.nrBr).map fun k =>
            if c.maps.brFixed.getD k false then 0 else 2).sum := by
          unfold brEntries
          rw [length_flatMap_sum]
          congr 1
          refine List.map_congr_left fun k _ => ?_
          split <;> rfl
        have h3 : (parEntries c).length = c.shape.nrParams := by
          unfold parEntries; simp
        rw [h1, h2, h3]
        omega
    rw [this M.comps 0]
    omega
  · cases M.fsmd with
    | none => rfl
    | some f =>
      dsimp only
      rw [foldl_add_sum, Nat.zero_add]
      unfold fsmdEntries
      rw [length_flatMap_sum]
      congr 1
      refine List.map_congr_left fun k _ => by simp

end Rpwa.ResFit
