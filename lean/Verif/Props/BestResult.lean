import Verif.Lemmas.BestResult
import Mathlib.Tactic.NormNum.Ineq
import Mathlib.Tactic.NormNum.OfScientific
import Mathlib.Tactic.Linarith
/-!
# Collecting fit results from files (C34) -/
namespace Rpwa.Best

variable {κ π : Type} [DecidableEq κ]

/-- what the function has to return for a bin. -/
def BinResult (o : Options) (A : List (Attempt κ π)) (out : List (Stored κ π)) : Prop :=
  if o.onlyBest then ∃ n a, FirstBest (fun _ => True) A n ∧ A[n]? = some a ∧ out = [⟨a, true⟩]
  else ∃ inp : List (Stored κ π), inp.map Stored.result = A ∧ (∀ n x, inp[n]? = some x → (x.matrices = true ↔ Keeps o.strip A n)) ∧ StableSorted inp out

theorem expect_some {α : Type} (a : α) : expect (some a) = .ok a := rfl

theorem assert_ok {p : Prop} (h : p) : assert p = .ok () := by unfold assert; rw [if_pos h]

theorem mapM_ok_of {α β : Type} (f : α → Outcome β) (P : α → β → Prop) : ∀ l : List α, (∀ a ∈ l, ∃ b, f a = .ok b ∧ P a b) →
    ∃ bs, l.mapM f = .ok bs ∧ List.Forall₂ P l bs
  | [], _ => ⟨[], rfl, .nil⟩
  | a :: l, h => by
    obtain ⟨b, hb, hp⟩ := h a List.mem_cons_self
    obtain ⟨bs, hbs, hps⟩ := mapM_ok_of f P l (fun x hx => h x (List.mem_cons_of_mem _ hx))
    refine ⟨b :: bs, ?_, .cons hp hps⟩
    rw [List.mapM_cons, hb, Outcome.ok_bind, hbs]
    rfl

/-- the head of a stably sorted list is the first best one. -/
theorem sorted_head {inp out : List (Stored κ π)} (hs : StableSorted inp out) {n : ℕ} {x : Stored κ π} (hx : inp[n]? = some x)
    (hmin : ∀ m y, inp[m]? = some y → x.result.logL ≤ y.result.logL ∧ (m < n → x.result.logL < y.result.logL)) : out.head? = some x := by
  obtain ⟨hp, hsort, hst⟩ := hs
  cases out with
  | nil =>
    have : inp = [] := List.nil_perm.1 hp
    rw [this] at hx; simp at hx
  | cons y out =>
    have hyi : y ∈ inp := hp.subset List.mem_cons_self
    obtain ⟨m, hm⟩ := List.mem_iff_getElem?.1 hyi
    have hxo : x ∈ y :: out := hp.symm.subset (List.mem_of_getElem? hx)
    have hle : y.result.logL ≤ x.result.logL := by
      rcases List.mem_cons.1 hxo with h | h
      · rw [h]
      · exact (List.pairwise_cons.1 hsort).1 x h
    have heq : y.result.logL = x.result.logL := le_antisymm hle (hmin m y hm).1
    have hf := hst x.result.logL
    rw [List.filter_cons, if_pos (by simpa using heq)] at hf
    -- the first element of value `x.logL` in `inp` is `x`
    have hsplit : inp = inp.take n ++ x :: inp.drop (n + 1) := by
      have hn := (List.getElem?_eq_some_iff.1 hx)
      obtain ⟨hlt, he⟩ := hn
      conv_lhs => rw [← List.take_append_drop n inp, List.drop_eq_getElem_cons hlt, he]
    have htake : (inp.take n).filter (fun z => decide (z.result.logL = x.result.logL)) = [] := by
      rw [List.filter_eq_nil_iff]
      intro z hz
      obtain ⟨j, hj⟩ := List.mem_iff_getElem?.1 hz
      have hjn : j < n := by
        have := (List.getElem?_eq_some_iff.1 hj).1
        rw [List.length_take] at this
        omega
      rw [List.getElem?_take_of_lt hjn] at hj
      have := (hmin j z hj).2 hjn
      simpa using this.ne'
    rw [hsplit, List.filter_append, htake, List.nil_append, List.filter_cons, if_pos (by simp)] at hf
    have := (List.cons.inj hf).1
    rw [this]; rfl

theorem finishBin_spec (o : Options) (trees : List (List (Attempt κ π))) (k : κ) (hk : k ∈ (scan o trees).all) :
    ∃ out, finishBin o trees (scan o trees) k = .ok out ∧ BinResult o (attempts o.onlyConverged trees k) out := by
  have inv := inv_scan o trees
  have hne := (inv.all k).1 hk
  have hA := binEntries_fst o trees k
  set A := binEntries o (entriesOf trees) k with hAdef
  have hread : ∀ e ∈ A, getEntry trees e.2 = .ok e.1 := fun e he => entriesOf_mem (List.mem_of_mem_filter he)
  -- the best entry
  obtain ⟨b, hb⟩ : ∃ b, (scan o trees).best k = some b := by
    cases h : (scan o trees).best k with
    | some b => exact ⟨b, rfl⟩
    | none =>
      have := inv.best k
      rw [h] at this
      obtain ⟨e, he⟩ := List.exists_mem_of_ne_nil _ hne
      exact absurd trivial (this e he)
  have hB := inv.best k
  rw [hb] at hB
  obtain ⟨n, e, hfb, hbl, hbe, hbi⟩ := hB
  have heA : e ∈ A := List.mem_of_getElem? hfb.1
  have hfirst : FirstBest (fun _ => True) (attempts o.onlyConverged trees k) n := by
    rw [← hA]; exact firstBest_iff.2 ⟨e, hfb⟩
  have hget : (attempts o.onlyConverged trees k)[n]? = some e.1 := by rw [← hA, List.getElem?_map, hfb.1]; rfl
  unfold finishBin BinResult
  by_cases hob : o.onlyBest = true
  · rw [if_pos hob]
    have hl : (scan o trees).lists k = [] := by rw [inv.lists k, if_pos hob]
    refine ⟨[⟨e.1, true⟩], ?_, ?_⟩
    · rw [hb, hl]
      simp only [expect_some, Outcome.ok_bind, hbe, hread e heA, List.length_nil, assert_ok, List.nil_append, Outcome.pure_eq]
    · rw [if_pos hob]
      exact ⟨n, e.1, hfirst, hget, rfl⟩
  · have hob' : o.onlyBest = false := by simpa using hob
    have hl : (scan o trees).lists k = A.map fun e => ⟨e.1, !o.strip⟩ := by rw [inv.lists k, if_neg hob]
    have hit : b.iter = n := hbi (by simp [hob'])
    have hnA := (List.getElem?_eq_some_iff.1 hfb.1).1
    rw [if_neg hob]
    simp only [if_neg hob]
    -- finishing: a list with the right flags is sorted and the assertion holds
    have fin : ∀ inp : List (Stored κ π), inp.map Stored.result = attempts o.onlyConverged trees k →
        (∀ n x, inp[n]? = some x → (x.matrices = true ↔ Keeps o.strip (attempts o.onlyConverged trees k) n)) →
        ∃ out, (do
          let f ← expect (inp.insertionSort (fun x y => x.result.logL ≤ y.result.logL)).head?
          assert (f.result.logL = b.logL)
          pure (inp.insertionSort (fun x y => x.result.logL ≤ y.result.logL)) : Outcome _) = .ok out ∧
          ∃ inp : List (Stored κ π), inp.map Stored.result = attempts o.onlyConverged trees k ∧
            (∀ n x, inp[n]? = some x → (x.matrices = true ↔ Keeps o.strip (attempts o.onlyConverged trees k) n)) ∧ StableSorted inp out := by
      intro inp h1 h2
      have hst := stableSorted_insertionSort inp
      have hx : ∃ x, inp[n]? = some x ∧ x.result = e.1 := by
        have : (inp.map Stored.result)[n]? = some e.1 := by rw [h1]; exact hget
        rw [List.getElem?_map, Option.map_eq_some_iff] at this
        exact this
      obtain ⟨x, hx, hxe⟩ := hx
      have hhead := sorted_head hst hx (by
        intro m y hm
        have hy : (attempts o.onlyConverged trees k)[m]? = some y.result := by rw [← h1, List.getElem?_map, hm]; rfl
        obtain ⟨a, ha, -, hmin⟩ := hfirst
        have : a = x.result := by rw [hget] at ha; rw [hxe]; exact (Option.some.inj ha).symm
        rw [← this]
        exact hmin m y.result hy trivial)
      refine ⟨_, ?_, inp, h1, h2, hst⟩
      rw [hhead]
      simp only [expect_some, Outcome.ok_bind]
      rw [assert_ok (by rw [hxe, hbl])]
      rfl
    rw [hb, hl]
    simp only [expect_some, Outcome.ok_bind, hbe, hit]
    by_cases hst : o.strip = true
    · rw [if_pos hst, hread e heA]
      simp only [Outcome.ok_bind]
      rw [assert_ok hbl, Outcome.ok_bind, List.getElem?_map, hfb.1]
      simp only [Option.map_some, expect_some, Outcome.ok_bind]
      rw [assert_ok trivial, Outcome.ok_bind]
      set l1 : List (Stored κ π) := (A.map fun e => ⟨e.1, !o.strip⟩).set n ⟨e.1, true⟩ with hl1
      have hl1n : l1[n]? = some ⟨e.1, true⟩ := by
        rw [hl1, List.getElem?_set_self (by simpa using hnA)]
      have hl1m : ∀ m, m ≠ n → l1[m]? = (A[m]?).map fun e => ⟨e.1, !o.strip⟩ := by
        intro m hm
        rw [hl1, List.getElem?_set_ne (Ne.symm hm), List.getElem?_map]
      have hl1A : l1.map Stored.result = attempts o.onlyConverged trees k := by
        rw [← hA]
        apply List.ext_getElem?
        intro m
        rw [List.getElem?_map, List.getElem?_map]
        by_cases hm : m = n
        · subst hm; rw [hl1n, hfb.1]; rfl
        · rw [hl1m m hm, Option.map_map]; rfl
      have keeps_iff : ∀ m, Keeps o.strip (attempts o.onlyConverged trees k) m ↔ m = n ∨ (e.1.converged = false ∧ ∃ f, FirstBestE (fun a => a.converged = true) A m f) := by
        intro m
        unfold Keeps
        rw [← hA]
        constructor
        · rintro (h | h | ⟨h, h'⟩)
          · rw [hst] at h; exact absurd h (by decide)
          · obtain ⟨f, hf⟩ := firstBest_iff.1 h
            exact .inl (firstBestE_unique hf hfb)
          · refine .inr ⟨h' n e.1 (firstBest_iff.2 ⟨e, hfb⟩) (by rw [List.getElem?_map, hfb.1]; rfl), firstBest_iff.1 h⟩
        · rintro (rfl | ⟨h, h'⟩)
          · exact .inr (.inl (firstBest_iff.2 ⟨e, hfb⟩))
          · refine .inr (.inr ⟨firstBest_iff.2 h', ?_⟩)
            intro i a hi ha
            obtain ⟨f, hf⟩ := firstBest_iff.1 hi
            have := firstBestE_unique hf hfb
            subst this
            rw [List.getElem?_map, hfb.1] at ha
            rw [← Option.some.inj ha]; exact h
      have hC := inv.bestConv hob' k
      rw [← hAdef] at hC
      cases hc : (scan o trees).bestConv k with
      | none =>
        rw [hc] at hC
        simp only [Outcome.pure_eq, Outcome.ok_bind]
        refine fin l1 hl1A ?_
        intro m x hx
        rw [keeps_iff]
        by_cases hm : m = n
        · subst hm
          rw [hl1n] at hx
          simp [← Option.some.inj hx]
        · rw [hl1m m hm, Option.map_eq_some_iff] at hx
          obtain ⟨f, -, rfl⟩ := hx
          simp only [hst, Bool.not_true, Bool.false_eq_true, hm, false_or, false_iff]
          rintro ⟨-, g, hg⟩
          exact hC g (List.mem_of_getElem? hg.1) hg.2.1
      | some c =>
        rw [hc] at hC
        obtain ⟨nc, ec, hfc, hcl, hce, hci⟩ := hC
        have hci' := hci rfl
        simp only [hl1n, expect_some, Outcome.ok_bind]
        by_cases hconv : e.1.converged = true
        · rw [if_pos hconv]
          have : b.logL = c.logL := by
            rw [hbl, hcl]
            exact le_antisymm (hfb.2.2 nc ec hfc.1 trivial).1 (hfc.2.2 n e hfb.1 hconv).1
          rw [assert_ok this]
          simp only [Outcome.pure_eq, Outcome.ok_bind]
          refine fin l1 hl1A ?_
          intro m x hx
          rw [keeps_iff]
          by_cases hm : m = n
          · subst hm
            rw [hl1n] at hx
            simp [← Option.some.inj hx]
          · rw [hl1m m hm, Option.map_eq_some_iff] at hx
            obtain ⟨f, -, rfl⟩ := hx
            simp [hst, hm, hconv]
        · rw [if_neg hconv]
          have hncn : nc ≠ n := by
            rintro rfl
            have he : e = ec := Option.some.inj (hfb.1.symm.trans hfc.1)
            exact hconv (he ▸ hfc.2.1)
          rw [hce, hread ec (List.mem_of_getElem? hfc.1)]
          simp only [Outcome.ok_bind]
          rw [hci', hl1m nc hncn, hfc.1]
          simp only [Option.map_some, expect_some, Outcome.ok_bind, Outcome.pure_eq]
          have hlen : nc < l1.length := by
            rw [hl1, List.length_set, List.length_map]
            exact (List.getElem?_eq_some_iff.1 hfc.1).1
          refine fin (l1.set nc ⟨ec.1, true⟩) ?_ ?_
          · rw [← hl1A]
            apply List.ext_getElem?
            intro m
            rw [List.getElem?_map, List.getElem?_map]
            by_cases hm : m = nc
            · subst hm
              rw [List.getElem?_set_self hlen, hl1m m hncn, hfc.1]; rfl
            · rw [List.getElem?_set_ne (Ne.symm hm)]
          · intro m x hx
            rw [keeps_iff]
            by_cases hmc : m = nc
            · subst hmc
              rw [List.getElem?_set_self hlen] at hx
              rw [← Option.some.inj hx]
              simp only [true_iff]
              exact .inr ⟨by simpa using hconv, ec, hfc⟩
            · rw [List.getElem?_set_ne (Ne.symm hmc)] at hx
              by_cases hm : m = n
              · subst hm
                rw [hl1n] at hx
                simp [← Option.some.inj hx]
              · rw [hl1m m hm, Option.map_eq_some_iff] at hx
                obtain ⟨f, -, rfl⟩ := hx
                simp only [hst, Bool.not_true, Bool.false_eq_true, hm, false_or, false_iff]
                rintro ⟨-, g, hg⟩
                exact hmc (firstBestE_unique hg hfc)
    · rw [if_neg hst]
      simp only [Outcome.pure_eq, Outcome.ok_bind]
      refine fin _ ?_ ?_
      · rw [← hA, List.map_map]; rfl
      · intro m x hx
        rw [List.getElem?_map, Option.map_eq_some_iff] at hx
        obtain ⟨f, -, rfl⟩ := hx
        have : o.strip = false := by simpa using hst
        simp [this, Keeps]

/-- **C34** the collected results: the function ends normally (no assertion fails), the returned bins are exactly the bins with an
attempt that is asked for, each once; for each bin the result is the first best attempt, or all attempts in ascending order of the
negative log-likelihood (equal ones in the order of the files), with the matrices kept exactly where they have to be. -/
theorem getFitResults_spec (o : Options) (trees : List (List (Attempt κ π))) :
    ∃ res, getFitResults o trees = .ok res ∧ (res.map Prod.fst).Nodup ∧
      (∀ k, k ∈ res.map Prod.fst ↔ attempts o.onlyConverged trees k ≠ []) ∧
      ∀ k out, (k, out) ∈ res → BinResult o (attempts o.onlyConverged trees k) out := by
  have inv := inv_scan o trees
  obtain ⟨res, hres, hP⟩ := mapM_ok_of (fun k => do
      let l ← finishBin o trees (scan o trees) k
      pure (k, l)) (fun k r => r.1 = k ∧ BinResult o (attempts o.onlyConverged trees k) r.2) (scan o trees).all (by
    intro k hk
    obtain ⟨out, h1, h2⟩ := finishBin_spec o trees k hk
    refine ⟨(k, out), ?_, rfl, h2⟩
    rw [h1]; rfl)
  have hkeys : res.map Prod.fst = (scan o trees).all := by
    clear hres inv
    generalize (scan o trees).all = l at hP
    induction hP with
    | nil => rfl
    | cons h _ ih => rw [List.map_cons, ih, h.1]
  refine ⟨res, hres, by rw [hkeys]; exact inv.nodup, ?_, ?_⟩
  · intro k
    rw [hkeys, inv.all, ← binEntries_fst]
    simp
  · intro k out hmem
    clear hres hkeys inv
    generalize (scan o trees).all = l at hP
    induction hP with
    | nil => simp at hmem
    | cons h _ ih =>
      rcases List.mem_cons.1 hmem with he | he
      · subst he
        obtain ⟨h1, h2⟩ := h
        simp only at h1 h2
        rw [h1]; exact h2
      · exact ih he

/-- **C34** in particular the first result of a bin is the first best attempt and has its matrices. -/
theorem first_is_best {o : Options} {A : List (Attempt κ π)} {out : List (Stored κ π)} (h : BinResult o A out) (hA : A ≠ []) :
    ∃ n x, FirstBest (fun _ => True) A n ∧ A[n]? = some x.result ∧ out.head? = some x ∧ x.matrices = true := by
  unfold BinResult at h
  by_cases hob : o.onlyBest = true
  · rw [if_pos hob] at h
    obtain ⟨n, a, h1, h2, rfl⟩ := h
    exact ⟨n, ⟨a, true⟩, h1, h2, rfl, rfl⟩
  · rw [if_neg hob] at h
    obtain ⟨inp, h1, h2, h3⟩ := h
    -- there is a first best attempt
    have hex : ∀ A : List (Attempt κ π), A ≠ [] → ∃ n, FirstBest (fun _ => True) A n := by
      intro A
      induction A with
      | nil => intro h; exact absurd rfl h
      | cons a A ih =>
        intro _
        by_cases hA : A = []
        · subst hA
          refine ⟨0, a, rfl, trivial, ?_⟩
          intro m b hb _
          cases m with
          | zero => simp at hb; subst hb; simp
          | succ m => simp at hb
        · obtain ⟨n, c, hc, -, hmin⟩ := ih hA
          by_cases hac : a.logL ≤ c.logL
          · refine ⟨0, a, rfl, trivial, ?_⟩
            intro m b hb _
            cases m with
            | zero => simp at hb; subst hb; simp
            | succ m =>
              simp only [List.getElem?_cons_succ] at hb
              exact ⟨hac.trans (hmin m b hb trivial).1, fun h => absurd h (Nat.not_lt_zero _)⟩
          · refine ⟨n + 1, c, by simpa using hc, trivial, ?_⟩
            intro m b hb _
            cases m with
            | zero =>
              simp at hb; subst hb
              exact ⟨(not_le.1 hac).le, fun _ => not_le.1 hac⟩
            | succ m =>
              simp only [List.getElem?_cons_succ] at hb
              exact ⟨(hmin m b hb trivial).1, fun h => (hmin m b hb trivial).2 (Nat.lt_of_succ_lt_succ h)⟩
    obtain ⟨n, hn⟩ := hex A hA
    have hn' := hn
    obtain ⟨a, ha, -, hmin⟩ := hn
    have : ∃ x, inp[n]? = some x ∧ x.result = a := by
      rw [← h1, List.getElem?_map, Option.map_eq_some_iff] at ha
      exact ha
    obtain ⟨x, hx, rfl⟩ := this
    refine ⟨n, x, hn', ha, sorted_head h3 hx ?_, (h2 n x hx).2 (.inr (.inl hn'))⟩
    intro m y hm
    exact hmin m y.result (by rw [← h1, List.getElem?_map, hm]; rfl) trivial

/-- **C34** no attempt is lost or invented. -/
theorem nothing_lost {o : Options} {A : List (Attempt κ π)} {out : List (Stored κ π)} (h : BinResult o A out) (ho : o.onlyBest = false) :
    (out.map Stored.result).Perm A := by
  unfold BinResult at h
  rw [if_neg (by simp [ho])] at h
  obtain ⟨inp, h1, -, h3⟩ := h
  rw [← h1]
  exact h3.1.map _

/-! ### example: two files, two bins, ties, and a best attempt that has not converged -/

def exTrees : List (List (Attempt ℕ String)) :=
  [[⟨0, -10, true, "a"⟩, ⟨1, -3, false, "b"⟩, ⟨0, -12, false, "c"⟩], [⟨0, -12, true, "d"⟩, ⟨0, -12, false, "e"⟩]]

example : attempts false exTrees 0 = [⟨0, -10, true, "a"⟩, ⟨0, -12, false, "c"⟩, ⟨0, -12, true, "d"⟩, ⟨0, -12, false, "e"⟩] := by
  simp [attempts, exTrees]

example : Keeps true (attempts false exTrees 0) 1 ∧ Keeps true (attempts false exTrees 0) 2 ∧ ¬ Keeps true (attempts false exTrees 0) 3 := by
  have e : attempts false exTrees 0 = [⟨0, -10, true, "a"⟩, ⟨0, -12, false, "c"⟩, ⟨0, -12, true, "d"⟩, ⟨0, -12, false, "e"⟩] := by simp [attempts, exTrees]
  rw [e]
  have h1 : FirstBest (fun _ => True) [(⟨0, -10, true, "a"⟩ : Attempt ℕ String), ⟨0, -12, false, "c"⟩, ⟨0, -12, true, "d"⟩, ⟨0, -12, false, "e"⟩] 1 := by
    refine ⟨_, rfl, trivial, ?_⟩
    intro m b hb _
    rcases m with _ | _ | _ | _ | m <;> simp at hb <;> subst hb <;> norm_num
  refine ⟨.inr (.inl h1), .inr (.inr ⟨⟨_, rfl, rfl, ?_⟩, ?_⟩), ?_⟩
  · intro m b hb hc
    rcases m with _ | _ | _ | _ | m <;> simp at hb <;> subst hb <;> first | (simp at hc; done) | (norm_num; done)
  · intro i a ⟨c, hc, _, hmin⟩ ha
    rcases i with _ | _ | _ | _ | i <;> simp at hc ha <;> subst hc <;> subst ha
    · have := (hmin 1 _ rfl trivial).1; norm_num at this
    · rfl
    · have := (hmin 1 _ rfl trivial).2 (by norm_num); norm_num at this
    · rfl
  · rintro (h | ⟨c, hc, _, hmin⟩ | ⟨⟨c, hc, hcc, _⟩, _⟩)
    · exact absurd h (by decide)
    · simp at hc; subst hc
      have := (hmin 1 _ rfl trivial).2 (by norm_num); norm_num at this
    · simp at hc; subst hc; simp at hcc

end Rpwa.Best
