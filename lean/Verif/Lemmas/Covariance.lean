import Verif.Lemmas.LikTools
/-! Lemmas for C28, C29. -/
namespace Rpwa.Lik

open Finset

/-! ### matrix loops -/

theorem inner_fold {β : Type} (C : List β) (k : β → ℕ) (hk : (C.map k).Nodup) (row : ℕ) (v : β → ℝ) (M0 : ℕ → ℕ → ℝ) :
    (∀ c ∈ C, C.foldl (fun M c => LikData.setEntry M row (k c) (v c)) M0 row (k c) = v c) ∧
    (∀ a b, a ≠ row ∨ b ∉ C.map k → C.foldl (fun M c => LikData.setEntry M row (k c) (v c)) M0 a b = M0 a b) := by
  induction C using List.reverseRecOn with
  | nil => simp
  | append_singleton l x ih =>
    rw [List.map_append, List.nodup_append] at hk
    obtain ⟨h1, _, h3⟩ := hk
    obtain ⟨i1, i2⟩ := ih h1
    simp only [List.foldl_append, List.foldl_cons, List.foldl_nil]
    constructor
    · intro c hc
      rw [List.mem_append, List.mem_singleton] at hc
      unfold LikData.setEntry
      rcases hc with hc | rfl
      · have : k c ≠ k x := h3 (k c) (List.mem_map_of_mem hc) (k x) (by simp)
        rw [if_neg (fun h => this h.2)]
        exact i1 c hc
      · rw [if_pos ⟨rfl, rfl⟩]
    · intro a b hab
      rw [List.map_append, List.mem_append] at hab
      unfold LikData.setEntry
      rw [if_neg]
      · exact i2 a b (by tauto)
      · rintro ⟨rfl, rfl⟩
        rcases hab with h | h
        · exact h rfl
        · exact h (Or.inr (by simp))

theorem nested_fold {β : Type} (R C : List β) (k : β → ℕ) (hR : (R.map k).Nodup) (hC : (C.map k).Nodup) (v : β → β → ℝ) (M0 : ℕ → ℕ → ℝ) :
    (∀ r ∈ R, ∀ c ∈ C, R.foldl (fun M r => C.foldl (fun M c => LikData.setEntry M (k r) (k c) (v r c)) M) M0 (k r) (k c) = v r c) ∧
    (∀ a b, a ∉ R.map k ∨ b ∉ C.map k →
      R.foldl (fun M r => C.foldl (fun M c => LikData.setEntry M (k r) (k c) (v r c)) M) M0 a b = M0 a b) := by
  induction R using List.reverseRecOn with
  | nil => simp
  | append_singleton l x ih =>
    rw [List.map_append, List.nodup_append] at hR
    obtain ⟨h1, _, h3⟩ := hR
    obtain ⟨i1, i2⟩ := ih h1
    simp only [List.foldl_append, List.foldl_cons, List.foldl_nil]
    have hin := fun M => inner_fold C k hC (k x) (v x) M
    constructor
    · intro r hr c hc
      rw [List.mem_append, List.mem_singleton] at hr
      rcases hr with hr | rfl
      · have : k r ≠ k x := h3 (k r) (List.mem_map_of_mem hr) (k x) (by simp)
        rw [(hin _).2 _ _ (Or.inl this)]
        exact i1 r hr c hc
      · exact (hin _).1 c hc
    · intro a b hab
      rw [List.map_append, List.mem_append] at hab
      rw [(hin _).2 a b]
      · exact i2 a b (by tauto)
      · rcases hab with h | h
        · left; rintro rfl; exact h (Or.inr (by simp))
        · exact Or.inr h

theorem foldlM_ok {α β : Type} (f : α → β → Outcome α) (g : α → β → α) (l : List β) (a : α) (h : ∀ a, ∀ b ∈ l, f a b = .ok (g a b)) :
    l.foldlM f a = .ok (l.foldl g a) := by
  induction l generalizing a with
  | nil => rfl
  | cons b l ih =>
    rw [List.foldlM_cons, h a b (by simp), Outcome.ok_bind, List.foldl_cons]
    exact ih _ fun a b hb => h a b (by simp [hb])

/-! ### free parameters -/

/-- the free parameters in their order. -/
def freeList (d : ParData) : List ℕ := (List.range d.nmbPars).filter fun i => !LikData.fixedAt d i

theorem reducedRows_eq (d : ParData) : reducedRows d = (freeList d).zipIdx.map fun p => (p.2, p.1) := by
  unfold reducedRows freeList
  have key : ∀ n, (List.range n).foldl (fun (st : ℕ × List (ℕ × ℕ)) i =>
      if LikData.fixedAt d i then (st.1 + 1, st.2) else (st.1, st.2 ++ [(i - st.1, i)])) (0, []) =
      (((List.range n).filter fun i => LikData.fixedAt d i).length,
        ((List.range n).filter fun i => !LikData.fixedAt d i).zipIdx.map fun p => (p.2, p.1)) := by
    intro n
    induction n with
    | zero => rfl
    | succ n ih =>
      rw [List.range_succ, List.foldl_append, ih]
      simp only [List.foldl_cons, List.foldl_nil, List.filter_append]
      have hlen : ((List.range n).filter fun i => LikData.fixedAt d i).length + ((List.range n).filter fun i => !LikData.fixedAt d i).length = n := by
        have := List.length_eq_length_filter_add (l := List.range n) (fun i => LikData.fixedAt d i)
        rw [List.length_range] at this
        omega
      cases h : LikData.fixedAt d n with
      | true => simp [h]
      | false =>
        simp only [Bool.false_eq_true, if_false]
        refine Prod.ext (by simp [h]) ?_
        simp only [List.filter_cons, h, Bool.not_false, if_true, List.filter_nil, List.zipIdx_append, List.map_append]
        simp
        omega
  rw [key]

theorem mem_rows (d : ParData) (p : ℕ × ℕ) : p ∈ reducedRows d ↔ (freeList d)[p.1]? = some p.2 := by
  rw [reducedRows_eq]
  simp only [List.mem_map, Prod.exists]
  constructor
  · rintro ⟨a, b, h, rfl⟩
    exact List.mk_mem_zipIdx_iff_getElem?.1 h
  · intro h
    exact ⟨p.2, p.1, List.mk_mem_zipIdx_iff_getElem?.2 h, rfl⟩

theorem rows_fst (d : ParData) : (reducedRows d).map Prod.fst = List.range (freeList d).length := by
  rw [reducedRows_eq, List.map_map]
  have : (Prod.fst ∘ fun p : ℕ × ℕ => (p.2, p.1)) = Prod.snd := rfl
  rw [this, List.zipIdx_map_snd, List.range_eq_range']

theorem rows_snd (d : ParData) : (reducedRows d).map Prod.snd = freeList d := by
  rw [reducedRows_eq, List.map_map]
  have : (Prod.snd ∘ fun p : ℕ × ℕ => (p.2, p.1)) = Prod.fst := rfl
  rw [this, List.zipIdx_map_fst]

theorem nodup_freeList (d : ParData) : (freeList d).Nodup := List.nodup_range.filter _

theorem mem_freeList (d : ParData) (i : ℕ) : i ∈ freeList d ↔ i < d.nmbPars ∧ LikData.fixedAt d i = false := by
  simp [freeList, List.mem_filter]

theorem free_add_fixed (d : ParData) (hlen : d.params.length = d.nmbPars) :
    (freeList d).length + (d.params.filter (·.fixed)).length = d.nmbPars := by
  have h1 := List.length_eq_length_filter_add (l := List.range d.nmbPars) (fun i => LikData.fixedAt d i)
  rw [List.length_range] at h1
  have h2 : ((List.range d.nmbPars).filter fun i => LikData.fixedAt d i).length = (d.params.filter (·.fixed)).length := by
    rw [← hlen]
    have key : ∀ l : List FitPar, ((List.range l.length).filter fun i => ((l[i]?).map (·.fixed)).getD false).length = (l.filter (·.fixed)).length := by
      intro l
      induction l using List.reverseRecOn with
      | nil => rfl
      | append_singleton l x ih =>
        rw [List.length_append, List.length_singleton, List.range_succ, List.filter_append, List.filter_append, List.length_append,
          List.length_append, ← ih]
        congr 1
        · congr 1
          refine List.filter_congr fun i hi => ?_
          rw [List.getElem?_append_left (List.mem_range.1 hi)]
        · rw [List.filter_cons, List.filter_cons]
          cases hx : x.fixed <;> simp [hx]
    exact key d.params
  unfold freeList
  omega

theorem reduceMatrix_eq (d : ParData) (hlen : d.params.length = d.nmbPars) (hfix : d.nmbParsFixed ≤ (d.params.filter (·.fixed)).length)
    (H : ℕ → ℕ → ℝ) : ∃ M, reduceMatrix d H = .ok M ∧
      (∀ (a b i j : ℕ), (freeList d)[a]? = some i → (freeList d)[b]? = some j → M a b = H i j) ∧
      (∀ a b, (freeList d).length ≤ a ∨ (freeList d).length ≤ b → M a b = 0) := by
  have hsum := free_add_fixed d hlen
  have hlt : ∀ p ∈ reducedRows d, p.1 < d.nmbPars - d.nmbParsFixed := by
    intro p hp
    have := (List.getElem?_eq_some_iff.1 ((mem_rows d p).1 hp)).1
    omega
  refine ⟨(reducedRows d).foldl (fun M ri => (reducedRows d).foldl (fun M cj => LikData.setEntry M ri.1 cj.1 (H ri.2 cj.2)) M) (fun _ _ => 0), ?_, ?_, ?_⟩
  · unfold reduceMatrix
    refine foldlM_ok _ _ _ _ fun M ri hri => ?_
    refine foldlM_ok _ (fun M (cj : ℕ × ℕ) => LikData.setEntry M ri.1 cj.1 (H ri.2 cj.2)) _ _ fun M cj hcj => ?_
    rw [if_pos ⟨hlt ri hri, hlt cj hcj⟩]
  · intro a b i j ha hb
    have hnd : ((reducedRows d).map Prod.fst).Nodup := by rw [rows_fst]; exact List.nodup_range
    exact (nested_fold (reducedRows d) (reducedRows d) Prod.fst hnd hnd (fun r c => H r.2 c.2) (fun _ _ => 0)).1 (a, i) ((mem_rows d (a, i)).2 ha)
      (b, j) ((mem_rows d (b, j)).2 hb)
  · intro a b hab
    have hnd : ((reducedRows d).map Prod.fst).Nodup := by rw [rows_fst]; exact List.nodup_range
    refine (nested_fold (reducedRows d) (reducedRows d) Prod.fst hnd hnd (fun r c => H r.2 c.2) (fun _ _ => 0)).2 a b ?_
    rw [rows_fst, List.mem_range, List.mem_range]
    omega

theorem expandMatrix_eq (d : ParData) (C : ℕ → ℕ → ℝ) :
    (∀ (a b i j : ℕ), (freeList d)[a]? = some i → (freeList d)[b]? = some j → expandMatrix d C i j = C a b) ∧
    (∀ i j, i ∉ freeList d ∨ j ∉ freeList d → expandMatrix d C i j = 0) := by
  have hnd : ((reducedRows d).map Prod.snd).Nodup := by rw [rows_snd]; exact nodup_freeList d
  have h := nested_fold (reducedRows d) (reducedRows d) Prod.snd hnd hnd (fun r c => C r.1 c.1) (fun _ _ => 0)
  constructor
  · intro a b i j ha hb
    exact h.1 (a, i) ((mem_rows d (a, i)).2 ha) (b, j) ((mem_rows d (b, j)).2 hb)
  · intro i j hij
    refine h.2 i j ?_
    rw [rows_snd]; exact hij

theorem getD_lt {l : List ℕ} {b : ℕ} (h : b < l.length) : l.getD b 0 = l[b] := by
  rw [List.getD_eq_getElem?_getD, List.getElem?_eq_getElem h]; rfl

/-- sum over free parameters. -/
theorem sum_free (d : ParData) (f : ℕ → ℝ) :
    (∑ j ∈ (range d.nmbPars).filter (fun j => LikData.fixedAt d j = false), f j) =
      ∑ b ∈ range (freeList d).length, f ((freeList d).getD b 0) := by
  symm
  refine sum_bij (fun b _ => (freeList d).getD b 0) ?_ ?_ ?_ ?_
  · intro b hb
    have hb := mem_range.1 hb
    have : (freeList d).getD b 0 ∈ freeList d := by
      rw [getD_lt hb]; exact List.getElem_mem hb
    rw [mem_freeList] at this
    rw [mem_filter, mem_range]; exact this
  · intro a ha b hb h
    have ha := mem_range.1 ha
    have hb := mem_range.1 hb
    rw [getD_lt ha, getD_lt hb] at h
    exact (List.Nodup.getElem_inj_iff (nodup_freeList d)).1 h
  · intro j hj
    rw [mem_filter, mem_range] at hj
    have hm : j ∈ freeList d := (mem_freeList d j).2 hj
    obtain ⟨b, hb, he⟩ := List.getElem_of_mem hm
    exact ⟨b, mem_range.2 hb, by rw [getD_lt hb]; exact he⟩
  · intro b _; rfl

theorem expandVector_eq (d : ParData) (v : ℕ → ℝ) :
    (∀ (a i : ℕ), (freeList d)[a]? = some i → expandVector d v i = v a) ∧ (∀ i, i ∉ freeList d → expandVector d v i = 0) := by
  have key : ∀ R : List (ℕ × ℕ), (R.map Prod.snd).Nodup → (∀ r ∈ R, R.foldl (fun out rj => fun k => if k = rj.2 then v rj.1 else out k) (fun _ => 0) r.2 = v r.1) ∧
      ∀ i, i ∉ R.map Prod.snd → R.foldl (fun out rj => fun k => if k = rj.2 then v rj.1 else out k) (fun _ => 0) i = 0 := by
    intro R hR
    induction R using List.reverseRecOn with
    | nil => simp
    | append_singleton l x ih =>
      rw [List.map_append, List.nodup_append] at hR
      obtain ⟨h1, _, h3⟩ := hR
      obtain ⟨i1, i2⟩ := ih h1
      simp only [List.foldl_append, List.foldl_cons, List.foldl_nil]
      constructor
      · intro r hr
        rw [List.mem_append, List.mem_singleton] at hr
        rcases hr with hr | rfl
        · have : r.2 ≠ x.2 := h3 r.2 (List.mem_map_of_mem hr) x.2 (by simp)
          rw [if_neg this]; exact i1 r hr
        · rw [if_pos rfl]
      · intro i hi
        rw [List.map_append, List.mem_append] at hi
        rw [if_neg (fun h => hi (Or.inr (by simp [h])))]
        exact i2 i (fun h => hi (Or.inl h))
  have h := key (reducedRows d) (by rw [rows_snd]; exact nodup_freeList d)
  constructor
  · intro a i ha
    exact h.1 (a, i) ((mem_rows d (a, i)).2 ha)
  · intro i hi
    exact h.2 i (by rw [rows_snd]; exact hi)

/-! ### rescaling of the integrals -/

theorem mem_waveIxs (nW : ℕ → ℕ) (i : WaveIx) : i ∈ waveIxs nW ↔ i.1 < 2 ∧ i.2 < nW i.1 := by
  obtain ⟨e, w⟩ := i
  simp only [waveIxs, List.mem_flatMap, List.mem_range, List.mem_map, Prod.mk.injEq]
  constructor
  · rintro ⟨a, ha, b, hb, rfl, rfl⟩; exact ⟨ha, hb⟩
  · rintro ⟨ha, hb⟩; exact ⟨e, ha, w, hb, rfl, rfl⟩

theorem nodup_waveIxs (nW : ℕ → ℕ) : (waveIxs nW).Nodup := by
  unfold waveIxs
  rw [List.nodup_flatMap]
  refine ⟨fun e _ => List.nodup_range.map (fun a b h => by simpa using h), ?_⟩
  refine List.nodup_range.imp ?_
  intro a b hab x hx hy
  simp only [List.mem_map] at hx hy
  obtain ⟨_, _, rfl⟩ := hx
  obtain ⟨_, _, h⟩ := hy
  exact hab (by simpa using (Prod.ext_iff.1 h).1.symm)

/-- two integral objects with the same diagonal have the same norms. -/
theorem waveNorm_congr {M M' : WaveIx → WaveIx → ℂ} (h : ∀ i, M i i = M' i i) (i : WaveIx) : waveNorm M i = waveNorm M' i := by
  unfold waveNorm; rw [h]

theorem rescale_row (i : WaveIx) (l : List WaveIx) (hl : l.Nodup) (m : Ints) :
    (l.foldl (rescaleStep i (waveNorm m.norm i)) m) =
      ⟨fun a b => if a = i ∧ b ∈ l ∧ i ≠ b then m.norm a b / ((waveNorm m.norm i * waveNorm m.norm b : ℝ) : ℂ) else m.norm a b,
       fun a b => if a = i ∧ b ∈ l then m.acc a b / ((waveNorm m.norm i * waveNorm m.norm b : ℝ) : ℂ) else m.acc a b⟩ := by
  generalize hn : waveNorm m.norm i = ni
  induction l using List.reverseRecOn with
  | nil => simp
  | append_singleton l j ih =>
    have h1 : l.Nodup := (List.nodup_append.1 hl).1
    have hj : j ∉ l := fun hc => (List.nodup_append.1 hl).2.2 j hc j (by simp) rfl
    rw [List.foldl_append, ih h1]
    simp only [List.foldl_cons, List.foldl_nil]
    unfold rescaleStep
    have hnj : waveNorm (fun a b => if a = i ∧ b ∈ l ∧ i ≠ b then m.norm a b / ((ni * waveNorm m.norm b : ℝ) : ℂ) else m.norm a b) j =
        waveNorm m.norm j := by
      refine waveNorm_congr (fun a => ?_) j
      rw [if_neg]; rintro ⟨rfl, _, h⟩; exact h rfl
    simp only [hnj]
    congr 1
    · funext a b
      by_cases hij : i = j
      · subst hij
        simp only [ne_eq, not_true_eq_false, if_false, List.mem_append, List.mem_singleton]
        by_cases ha : a = i
        · by_cases hb : b = i
          · simp [ha, hb]
          · simp [hb]
        · simp [ha]
      · rw [if_pos hij]
        unfold setIx
        by_cases ha : a = i
        · by_cases hb : b = j
          · simp [ha, hb, hij, hj]
          · simp [ha, hb]
        · simp [ha]
    · funext a b
      unfold setIx
      by_cases ha : a = i
      · by_cases hb : b = j
        · simp [ha, hb, hj]
        · simp [ha, hb]
      · simp [ha]

theorem rescale_all (nW : ℕ → ℕ) (l : List WaveIx) (hl : l.Nodup) (m : Ints) :
    (l.foldl (fun m i => (waveIxs nW).foldl (rescaleStep i (waveNorm m.norm i)) m) m) =
      ⟨fun a b => if a ∈ l ∧ b ∈ waveIxs nW ∧ a ≠ b then m.norm a b / ((waveNorm m.norm a * waveNorm m.norm b : ℝ) : ℂ) else m.norm a b,
       fun a b => if a ∈ l ∧ b ∈ waveIxs nW then m.acc a b / ((waveNorm m.norm a * waveNorm m.norm b : ℝ) : ℂ) else m.acc a b⟩ := by
  induction l using List.reverseRecOn with
  | nil => simp
  | append_singleton l i ih =>
    have h1 : l.Nodup := (List.nodup_append.1 hl).1
    have hi : i ∉ l := fun hc => (List.nodup_append.1 hl).2.2 i hc i (by simp) rfl
    have e := ih h1
    rw [List.foldl_append]
    generalize List.foldl (fun m i => List.foldl (rescaleStep i (waveNorm m.norm i)) m (waveIxs nW)) m l = m' at e ⊢
    simp only [List.foldl_cons, List.foldl_nil]
    rw [rescale_row i _ (nodup_waveIxs nW) m', e]
    simp only
    have hn : ∀ j, waveNorm (fun a b => if a ∈ l ∧ b ∈ waveIxs nW ∧ a ≠ b then m.norm a b / ((waveNorm m.norm a * waveNorm m.norm b : ℝ) : ℂ)
        else m.norm a b) j = waveNorm m.norm j := by
      intro j
      refine waveNorm_congr (fun a => ?_) j
      rw [if_neg]; rintro ⟨_, _, h⟩; exact h rfl
    simp only [hn]
    congr 1
    · funext a b
      by_cases ha : a = i
      · subst ha
        by_cases hb : b ∈ waveIxs nW <;> by_cases hab : a = b <;> simp [hb, hab, hi]
      · simp [ha]
    · funext a b
      by_cases ha : a = i
      · subst ha
        by_cases hb : b ∈ waveIxs nW <;> simp [hb, hi]
      · simp [ha]

theorem rescale_acc (nW : ℕ → ℕ) (m : Ints) (a b : WaveIx) (ha : a ∈ waveIxs nW) (hb : b ∈ waveIxs nW) :
    (rescaleIntegrals nW m).acc a b = m.acc a b / ((waveNorm m.norm a * waveNorm m.norm b : ℝ) : ℂ) := by
  unfold rescaleIntegrals
  simp only
  rw [rescale_all nW _ (nodup_waveIxs nW)]
  simp [ha, hb]

theorem diag_fold (l : List WaveIx) (hl : l.Nodup) (M : WaveIx → WaveIx → ℂ) :
    l.foldl (fun M i => if M i i ≠ 0 then setIx M i i 1 else M) M = fun a b => if a = b ∧ a ∈ l ∧ M a a ≠ 0 then 1 else M a b := by
  induction l using List.reverseRecOn with
  | nil => simp
  | append_singleton l i ih =>
    have h1 : l.Nodup := (List.nodup_append.1 hl).1
    have hi : i ∉ l := fun hc => (List.nodup_append.1 hl).2.2 i hc i (by simp) rfl
    rw [List.foldl_append, ih h1]
    simp only [List.foldl_cons, List.foldl_nil, hi, false_and, and_false, if_false]
    funext a b
    by_cases hM : M i i = 0
    · simp only [hM, ne_eq, not_true_eq_false, if_false, List.mem_append, List.mem_singleton]
      by_cases hai : a = i
      · subst hai; simp [hM]
      · simp [hai]
    · simp only [hM, ne_eq, not_false_eq_true, if_true, List.mem_append, List.mem_singleton]
      unfold setIx
      by_cases hai : a = i
      · subst hai
        by_cases hb : b = a
        · subst hb; simp [hM]
        · have hb' : ¬ a = b := fun h => hb h.symm
          simp [hb, hb']
      · simp [hai]

theorem rescale_norm (nW : ℕ → ℕ) (m : Ints) (a b : WaveIx) (ha : a ∈ waveIxs nW) (hb : b ∈ waveIxs nW) :
    (rescaleIntegrals nW m).norm a b = if a = b then (if m.norm a a ≠ 0 then 1 else 0)
      else m.norm a b / ((waveNorm m.norm a * waveNorm m.norm b : ℝ) : ℂ) := by
  unfold rescaleIntegrals
  simp only
  rw [rescale_all nW _ (nodup_waveIxs nW), diag_fold _ (nodup_waveIxs nW)]
  by_cases hab : a = b
  · subst hab
    by_cases h0 : m.norm a a = 0 <;> simp [ha, h0]
  · simp [ha, hb, hab]

end Rpwa.Lik
