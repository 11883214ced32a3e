import Verif.Spec.FitRead
import Verif.Props.FitCov
import Mathlib.Tactic.Linarith
import Mathlib.Data.List.Sort
/-! # C101: reading the results of fits -/
namespace Rpwa.FitRead

open Rpwa.FitCov (Mat pairRow)

variable {K : Type} [Field K] [LinearOrder K] [IsStrictOrderedRing K]

/-! ### entries and mass bins -/

theorem findIdx_firstNear (tol : K) (cs : List K) (x : K) (i : ℕ) :
    (cs.findIdx? fun c => near tol c x) = some i ↔ FirstNear tol cs x i := by
  rw [List.findIdx?_eq_some_iff_getElem]
  unfold FirstNear near
  constructor
  · rintro ⟨h, h1, h2⟩
    refine ⟨⟨cs[i], List.getElem?_eq_getElem h, of_decide_eq_true h1⟩, ?_⟩
    intro j hj c hc
    obtain ⟨hj', rfl⟩ := List.getElem?_eq_some_iff.1 hc
    have h3 := h2 j hj
    have h4 := fun h5 => h3 (decide_eq_true h5)
    exact not_lt.1 h4
  · rintro ⟨⟨c, hc, h1⟩, h2⟩
    obtain ⟨h, rfl⟩ := List.getElem?_eq_some_iff.1 hc
    refine ⟨h, decide_eq_true h1, ?_⟩
    intro j hj h3
    exact absurd (of_decide_eq_true h3) (not_lt.2 (h2 j hj _ (List.getElem?_eq_getElem _)))

theorem FirstNear.lt {tol : K} {cs : List K} {x : K} {m : ℕ} (h : FirstNear tol cs x m) : m < cs.length := by
  obtain ⟨⟨c, hc, _⟩, _⟩ := h
  exact (List.getElem?_eq_some_iff.1 hc).1

theorem FirstNear.unique {tol : K} {cs : List K} {x : K} {m m' : ℕ} (h : FirstNear tol cs x m) (h' : FirstNear tol cs x m') : m = m' := by
  have h1 := (findIdx_firstNear tol cs x m).2 h
  have h2 := (findIdx_firstNear tol cs x m').2 h'
  rw [h1] at h2
  exact Option.some.inj h2

/-- what the loop over the entries leaves. -/
theorem mapEntries_ok (tol : K) (cs : List K) : ∀ (ms : List K) (idx : ℕ) (mp mp' : List (Option ℕ)), mp.length = cs.length →
    mapEntries tol cs idx ms mp = .ok mp' →
    mp'.length = cs.length ∧ (∀ i k : ℕ, mp'[i]? = some (some k) ↔ mp[i]? = some (some k) ∨
      ∃ (t : ℕ) (x : K), k = idx + t ∧ ms[t]? = some x ∧ FirstNear tol cs x i) ∧
    ∀ (t : ℕ) (x : K), ms[t]? = some x → ∃ i : ℕ, FirstNear tol cs x i ∧ mp[i]? = some none := by
  intro ms
  induction ms with
  | nil =>
    intro idx mp mp' hl h
    have h' : mp = mp' := by
      have : mapEntries tol cs idx [] mp = .ok mp := rfl
      rw [this] at h
      exact Outcome.ok.inj h
    subst h'
    refine ⟨hl, ?_, ?_⟩
    · intro i k
      constructor
      · exact Or.inl
      · rintro (h1 | ⟨t, x, _, h1, _⟩)
        · exact h1
        · simp at h1
    · intro t x h1
      simp at h1
  | cons x ms ih =>
    intro idx mp mp' hl h
    unfold mapEntries at h
    cases hf : cs.findIdx? fun c => near tol c x with
    | none => rw [hf] at h; cases h
    | some i =>
      rw [hf] at h
      dsimp only at h
      cases hm : mp[i]? with
      | none => rw [hm] at h; cases h
      | some o =>
        rw [hm] at h
        cases o with
        | some _ => cases h
        | none =>
          dsimp only at h
          have hi : i < mp.length := (List.getElem?_eq_some_iff.1 hm).1
          have hfn := (findIdx_firstNear tol cs x i).1 hf
          obtain ⟨h1, h2, h3⟩ := ih (idx + 1) _ mp' (by rw [List.length_set]; exact hl) h
          refine ⟨h1, ?_, ?_⟩
          · intro j k
            rw [h2 j k]
            constructor
            · rintro (h4 | ⟨t, y, rfl, h5, h6⟩)
              · by_cases hij : i = j
                · subst hij
                  rw [List.getElem?_set_self hi] at h4
                  obtain rfl := Option.some.inj (Option.some.inj h4)
                  exact Or.inr ⟨0, x, rfl, rfl, hfn⟩
                · rw [List.getElem?_set_ne hij] at h4
                  exact Or.inl h4
              · exact Or.inr ⟨t + 1, y, by omega, h5, h6⟩
            · rintro (h4 | ⟨t, y, rfl, h5, h6⟩)
              · left
                by_cases hij : i = j
                · subst hij
                  rw [hm] at h4
                  cases h4
                · rw [List.getElem?_set_ne hij]
                  exact h4
              · cases t with
                | zero =>
                  left
                  have hxy : x = y := Option.some.inj h5
                  subst hxy
                  have := hfn.unique h6
                  subst this
                  rw [List.getElem?_set_self hi]
                  rfl
                | succ t => exact Or.inr ⟨t, y, by omega, h5, h6⟩
          · intro t y h4
            cases t with
            | zero =>
              have hxy : x = y := Option.some.inj h4
              subst hxy
              exact ⟨i, hfn, hm⟩
            | succ t =>
              obtain ⟨j, h5, h6⟩ := h3 t y h4
              refine ⟨j, h5, ?_⟩
              by_cases hij : i = j
              · subst hij
                rw [List.getElem?_set_self hi] at h6
                cases h6
              · rw [List.getElem?_set_ne hij] at h6
                exact h6

theorem mapEntries_not_ub (tol : K) (cs : List K) : ∀ (ms : List K) (idx : ℕ) (mp : List (Option ℕ)), mp.length = cs.length →
    mapEntries tol cs idx ms mp ≠ .ub := by
  intro ms
  induction ms with
  | nil => intro idx mp _ h; cases h
  | cons x ms ih =>
    intro idx mp hl h
    unfold mapEntries at h
    cases hf : cs.findIdx? fun c => near tol c x with
    | none => rw [hf] at h; cases h
    | some i =>
      rw [hf] at h
      dsimp only at h
      have hi : i < mp.length := by
        rw [hl]
        exact ((findIdx_firstNear tol cs x i).1 hf).lt
      rw [List.getElem?_eq_getElem hi] at h
      cases ho : mp[i] with
      | some _ => rw [ho] at h; cases h
      | none =>
        rw [ho] at h
        exact ih (idx + 1) _ (by rw [List.length_set]; exact hl) h

/-- every entry has a mass bin, and none has two entries: the loop comes to its end. -/
theorem mapEntries_exists (tol : K) (cs : List K) : ∀ (ms : List K) (idx : ℕ) (mp : List (Option ℕ)),
    (∀ (t : ℕ) (x : K), ms[t]? = some x → ∃ i : ℕ, FirstNear tol cs x i ∧ mp[i]? = some none) →
    (∀ (t t' : ℕ) (x x' : K) (i : ℕ), ms[t]? = some x → ms[t']? = some x' → FirstNear tol cs x i → FirstNear tol cs x' i → t = t') →
    ∃ mp', mapEntries tol cs idx ms mp = .ok mp' := by
  intro ms
  induction ms with
  | nil => intro idx mp _ _; exact ⟨mp, rfl⟩
  | cons x ms ih =>
    intro idx mp h1 h2
    obtain ⟨i, hfn, hm⟩ := h1 0 x rfl
    have hf := (findIdx_firstNear tol cs x i).2 hfn
    have hi : i < mp.length := (List.getElem?_eq_some_iff.1 hm).1
    obtain ⟨mp', h⟩ := ih (idx + 1) (mp.set i (some idx)) (by
      intro t y hy
      obtain ⟨j, h3, h4⟩ := h1 (t + 1) y hy
      refine ⟨j, h3, ?_⟩
      rw [List.getElem?_set_ne]
      · exact h4
      · intro hij
        subst hij
        have := h2 0 (t + 1) x y i rfl hy hfn h3
        omega) (by
      intro t t' y y' j h3 h4 h5 h6
      have := h2 (t + 1) (t' + 1) y y' j h3 h4 h5 h6
      omega)
    refine ⟨mp', ?_⟩
    unfold mapEntries
    rw [hf]
    dsimp only
    rw [hm]
    exact h

theorem all_isSome (l : List (Option ℕ)) : l.all Option.isSome = true → l = (l.filterMap id).map some := by
  induction l with
  | nil => intro _; rfl
  | cons a l ih =>
    intro h
    rw [List.all_cons, Bool.and_eq_true] at h
    cases a with
    | none => cases h.1
    | some a =>
      have := ih h.2
      conv_lhs => rw [this]
      rfl

theorem filterMap_some (l : List ℕ) : (l.map some).filterMap id = l ∧ (l.map some).all Option.isSome = true := by
  induction l with
  | nil => exact ⟨rfl, rfl⟩
  | cons a l ih => exact ⟨by show a :: _ = _; rw [ih.1], by show (true && _) = true; rw [ih.2]; rfl⟩

/-- **C101** (mapping): a mapping is made if and only if mass bins and entries are one to one. -/
theorem checkMassBins_ok (tol : K) (cs ms : List K) (mp : List ℕ) : checkMassBins tol cs ms = .ok mp ↔ Mapped tol cs ms mp := by
  have hrep : ∀ i k : ℕ, (List.replicate cs.length (none : Option ℕ))[i]? ≠ some (some k) := by
    intro i k h
    rw [List.getElem?_replicate] at h
    split at h <;> cases h
  have hlen : (List.replicate cs.length (none : Option ℕ)).length = cs.length := List.length_replicate
  constructor
  · intro h
    unfold checkMassBins at h
    cases hm : mapEntries tol cs 0 ms (List.replicate cs.length none) with
    | terminate => rw [hm] at h; cases h
    | ub => rw [hm] at h; cases h
    | ok mp' =>
      rw [hm] at h
      dsimp only at h
      by_cases hall : mp'.all Option.isSome = true
      · rw [if_pos hall] at h
        obtain rfl := Outcome.ok.inj h
        have heq := all_isSome mp' hall
        obtain ⟨h1, h2, h3⟩ := mapEntries_ok tol cs ms 0 _ mp' hlen hm
        have hget : ∀ i k : ℕ, (mp'.filterMap id)[i]? = some k ↔ mp'[i]? = some (some k) := by
          intro i k
          conv_rhs => rw [heq, List.getElem?_map]
          cases (mp'.filterMap id)[i]? with
          | none => simp
          | some v => simp
        refine ⟨?_, ?_, ?_⟩
        · rw [← h1]
          conv_rhs => rw [heq, List.length_map]
        · intro i k
          rw [hget, h2 i k]
          constructor
          · rintro (h4 | ⟨t, x, rfl, h5, h6⟩)
            · exact absurd h4 (hrep i k)
            · exact ⟨x, by rw [Nat.zero_add]; exact h5, h6⟩
          · rintro ⟨x, h5, h6⟩
            exact Or.inr ⟨k, x, by omega, h5, h6⟩
        · intro k hk
          obtain ⟨i, h4, _⟩ := h3 k ms[k] (List.getElem?_eq_getElem hk)
          refine ⟨i, ?_⟩
          rw [hget, h2 i k]
          exact Or.inr ⟨k, ms[k], by omega, List.getElem?_eq_getElem hk, h4⟩
      · rw [if_neg hall] at h
        cases h
  · rintro ⟨h1, h2, h3⟩
    obtain ⟨mp', hm⟩ := mapEntries_exists tol cs ms 0 (List.replicate cs.length none) (by
      intro t x ht
      obtain ⟨i, hi⟩ := h3 t (List.getElem?_eq_some_iff.1 ht).1
      obtain ⟨y, h4, h5⟩ := (h2 i t).1 hi
      rw [ht] at h4
      obtain rfl := Option.some.inj h4
      refine ⟨i, h5, ?_⟩
      rw [List.getElem?_replicate, if_pos h5.lt]) (by
      intro t t' x x' i h4 h5 h6 h7
      have h8 := (h2 i t).2 ⟨x, h4, h6⟩
      have h9 := (h2 i t').2 ⟨x', h5, h7⟩
      rw [h8] at h9
      exact Option.some.inj h9)
    obtain ⟨h4, h5, _⟩ := mapEntries_ok tol cs ms 0 _ mp' hlen hm
    have heq : mp' = mp.map some := by
      apply List.ext_getElem?
      intro i
      by_cases hi : i < cs.length
      · have hi' : i < mp.length := by omega
        rw [List.getElem?_map, List.getElem?_eq_getElem hi']
        obtain ⟨x, h6, h7⟩ := (h2 i mp[i]).1 (List.getElem?_eq_getElem hi')
        exact (h5 i mp[i]).2 (Or.inr ⟨mp[i], x, by omega, h6, h7⟩)
      · rw [List.getElem?_eq_none (by omega), List.getElem?_eq_none (by rw [List.length_map]; omega)]
    unfold checkMassBins
    rw [hm]
    dsimp only
    rw [heq, (filterMap_some mp).1, (filterMap_some mp).2, if_pos rfl]

theorem checkMassBins_not_ub (tol : K) (cs ms : List K) : checkMassBins tol cs ms ≠ .ub := by
  intro h
  unfold checkMassBins at h
  cases hm : mapEntries tol cs 0 ms (List.replicate cs.length none) with
  | ub => exact mapEntries_not_ub tol cs ms 0 _ List.length_replicate hm
  | terminate => rw [hm] at h; cases h
  | ok mp' =>
    rw [hm] at h
    dsimp only at h
    split at h <;> cases h

/-! ### centers of mass bins -/

theorem different_symm {tol a b : K} (h : tol ≤ |a - b|) : tol ≤ |b - a| := by rw [abs_sub_comm]; exact h

theorem collect_different (tol : K) : ∀ (ms cs : List K), Different tol cs → Different tol (collect tol ms cs) := by
  intro ms
  induction ms with
  | nil => intro cs h; exact h
  | cons m ms ih =>
    intro cs h
    unfold collect
    apply ih
    by_cases hc : (cs.any fun c => near tol c m) = true
    · rw [if_pos hc]; exact h
    · rw [if_neg hc]
      unfold Different at h ⊢
      rw [List.pairwise_append]
      refine ⟨h, List.pairwise_singleton _ _, ?_⟩
      intro a ha b hb
      obtain rfl := List.mem_singleton.1 hb
      by_contra hlt
      apply hc
      rw [List.any_eq_true]
      exact ⟨a, ha, decide_eq_true (not_le.1 hlt)⟩

theorem collect_sublist (tol : K) : ∀ (ms cs : List K), ∃ l, collect tol ms cs = cs ++ l ∧ l.Sublist ms := by
  intro ms
  induction ms with
  | nil => intro cs; exact ⟨[], by rw [List.append_nil]; rfl, List.Sublist.refl _⟩
  | cons m ms ih =>
    intro cs
    unfold collect
    by_cases hc : (cs.any fun c => near tol c m) = true
    · rw [if_pos hc]
      obtain ⟨l, h1, h2⟩ := ih cs
      exact ⟨l, h1, h2.cons m⟩
    · rw [if_neg hc]
      obtain ⟨l, h1, h2⟩ := ih (cs ++ [m])
      exact ⟨m :: l, by rw [h1, List.append_assoc]; rfl, h2.cons_cons m⟩

theorem collect_all (tol : K) : ∀ (ms cs : List K), Different tol (cs ++ ms) → collect tol ms cs = cs ++ ms := by
  intro ms
  induction ms with
  | nil => intro cs _; rw [List.append_nil]; rfl
  | cons m ms ih =>
    intro cs h
    have hc : ¬ (cs.any fun c => near tol c m) = true := by
      intro hc
      obtain ⟨c, h1, h2⟩ := List.any_eq_true.1 hc
      unfold Different at h
      have h3 := (List.pairwise_append.1 h).2.2 c h1 m List.mem_cons_self
      exact absurd (of_decide_eq_true h2) (not_lt.2 h3)
    unfold collect
    rw [if_neg hc, ih (cs ++ [m]) (by rw [List.append_assoc]; exact h), List.append_assoc]
    rfl

theorem collect_eq_nil (tol : K) (ms : List K) : collect tol ms [] = [] ↔ ms = [] := by
  constructor
  · intro h
    cases ms with
    | nil => rfl
    | cons m ms =>
      have he : collect tol (m :: ms) [] = collect tol ms [m] := rfl
      obtain ⟨l, h1, _⟩ := collect_sublist tol ms [m]
      rw [he, h1] at h
      cases h
  · rintro rfl
    rfl

theorem equidistant_iff (tol : K) (cs : List K) (step : K) :
    equidistant tol cs step = true ↔ ∀ (m : ℕ) (a b : K), cs[m]? = some a → cs[m + 1]? = some b → |b - a - step| ≤ tol := by
  unfold equidistant
  rw [List.all_eq_true]
  constructor
  · intro h m a b h1 h2
    have hmem : (a, b) ∈ cs.zip cs.tail := by
      rw [List.mem_iff_getElem?]
      refine ⟨m, ?_⟩
      rw [List.getElem?_zip_eq_some]
      refine ⟨h1, ?_⟩
      rw [List.getElem?_tail]
      exact h2
    exact of_decide_eq_true (h _ hmem)
  · rintro h ⟨a, b⟩ hmem
    obtain ⟨m, hm⟩ := List.mem_iff_getElem?.1 hmem
    rw [List.getElem?_zip_eq_some] at hm
    obtain ⟨h1, h2⟩ := hm
    rw [List.getElem?_tail] at h2
    exact decide_eq_true (h m a b h1 h2)

/-- **C101** (centers): the different centers in ascending order, if they are equidistant. -/
theorem readMassBins_ok (tol : K) (ms cs : List K) :
    readMassBins tol ms = .ok cs ↔ ms ≠ [] ∧ cs = (collect tol ms []).insertionSort (· ≤ ·) ∧ Equidistant tol cs := by
  have hnil : (collect tol ms []).insertionSort (· ≤ ·) = [] ↔ ms = [] := by
    rw [← collect_eq_nil tol ms, ← List.length_eq_zero_iff, List.length_insertionSort, List.length_eq_zero_iff]
  unfold readMassBins
  generalize hs : (collect tol ms []).insertionSort (· ≤ ·) = s
  rw [hs] at hnil
  dsimp only
  cases s with
  | nil =>
    constructor
    · intro h; cases h
    · rintro ⟨h, _⟩
      exact absurd (hnil.1 rfl) h
  | cons c r =>
    have hms : ms ≠ [] := by
      intro h
      have := hnil.2 h
      cases this
    have hstep : equidistant tol (c :: r) (((c :: r).getLast?.getD c - c) / (r.length : K)) = true ↔ Equidistant tol (c :: r) := by
      rw [equidistant_iff]
      have hlast : (c :: r)[(c :: r).length - 1]? = some ((c :: r).getLast?.getD c) := by
        rw [← List.getLast?_eq_getElem?]
        rw [List.getLast?_eq_some_getLast (List.cons_ne_nil c r)]
        rfl
      have hl : ((c :: r).length - 1 : ℕ) = r.length := by simp
      constructor
      · intro h m a b first last h1 h2 h3 h4
        rw [hlast] at h4
        have h3' : (c :: r)[0]? = some c := rfl
        rw [h3'] at h3
        obtain rfl := Option.some.inj h3
        obtain rfl := Option.some.inj h4
        rw [hl]
        exact h m a b h1 h2
      · intro h m a b h1 h2
        have := h m a b c _ h1 h2 rfl hlast
        rw [hl] at this
        exact this
    dsimp only
    constructor
    · intro h
      by_cases he : equidistant tol (c :: r) (((c :: r).getLast?.getD c - c) / (r.length : K)) = true
      · rw [if_pos he] at h
        obtain rfl := Outcome.ok.inj h
        exact ⟨hms, rfl, hstep.1 he⟩
      · rw [if_neg he] at h
        cases h
    · rintro ⟨_, rfl, h⟩
      rw [if_pos (hstep.2 h)]

/-- a file without entries is the only one that reads out of range. -/
theorem readMassBins_ub (tol : K) (ms : List K) : readMassBins tol ms = .ub ↔ ms = [] := by
  constructor
  · intro h
    by_contra hms
    unfold readMassBins at h
    generalize hs : (collect tol ms []).insertionSort (· ≤ ·) = s at h
    dsimp only at h
    cases s with
    | nil =>
      apply hms
      rw [← collect_eq_nil tol ms, ← List.length_eq_zero_iff, ← List.length_insertionSort (r := (· ≤ ·)), hs]
      rfl
    | cons c r =>
      dsimp only at h
      split at h <;> cases h
  · rintro rfl
    rfl

theorem firstNear_of_different {tol : K} (htol : 0 < tol) {cs : List K} (hd : Different tol cs) {m : ℕ} {c : K} (hc : cs[m]? = some c) :
    FirstNear tol cs c m := by
  refine ⟨⟨c, hc, by rw [sub_self, abs_zero]; exact htol⟩, ?_⟩
  intro m' hm' c' hc'
  obtain ⟨h1, rfl⟩ := List.getElem?_eq_some_iff.1 hc
  obtain ⟨h2, rfl⟩ := List.getElem?_eq_some_iff.1 hc'
  exact List.pairwise_iff_getElem.1 hd m' m h2 h1 hm'

theorem different_perm {tol : K} {l l' : List K} (h : l.Perm l') (hd : Different tol l) : Different tol l' :=
  h.pairwise hd fun h => different_symm h

theorem different_nodup {tol : K} (htol : 0 < tol) {l : List K} (hd : Different tol l) : l.Nodup := by
  apply List.Pairwise.imp _ hd
  intro a b h hab
  subst hab
  rw [sub_self, abs_zero] at h
  exact absurd htol (not_lt.2 h)

/-- **C101** (files): a file is accepted if and only if it has one result for every mass bin and the mass bins are equidistant; the centers are
ascending and every mass bin is read from its own entry. -/
theorem readFile_ok (tol : K) (htol : 0 < tol) (ms cs : List K) (mp : List ℕ) : readFile tol ms = .ok (cs, mp) ↔ GoodFile tol ms cs mp := by
  have hread : readFile tol ms = .ok (cs, mp) ↔ readMassBins tol ms = .ok cs ∧ checkMassBins tol cs ms = .ok mp := by
    unfold readFile
    constructor
    · intro h
      cases hr : readMassBins tol ms with
      | terminate => rw [hr] at h; cases h
      | ub => rw [hr] at h; cases h
      | ok cs' =>
        rw [hr] at h
        dsimp only at h
        cases hc : checkMassBins tol cs' ms with
        | terminate => rw [hc] at h; cases h
        | ub => rw [hc] at h; cases h
        | ok mp' =>
          rw [hc] at h
          cases h
          exact ⟨rfl, hc⟩
    · rintro ⟨h1, h2⟩
      rw [h1]
      dsimp only
      rw [h2]
  rw [hread, readMassBins_ok, checkMassBins_ok]
  constructor
  · rintro ⟨⟨h1, h2, h3⟩, h4, h5, h6⟩
    obtain ⟨l, hl1, hl2⟩ := collect_sublist tol ms []
    rw [List.nil_append] at hl1
    have hlen : cs.length = l.length := by rw [h2, List.length_insertionSort, hl1]
    have hge : ms.length ≤ l.length := by
      -- every entry is in the mapping
      have hsub : List.range ms.length ⊆ mp := by
        intro k hk
        obtain ⟨m, hm⟩ := h6 k (List.mem_range.1 hk)
        exact List.mem_of_getElem? hm
      have := (List.nodup_range.subperm hsub).length_le
      rw [List.length_range] at this
      omega
    obtain rfl := hl2.eq_of_length_le hge
    have hdiff : Different tol l := by
      rw [← hl1]
      exact collect_different tol l [] List.Pairwise.nil
    have hperm : cs.Perm l := by
      rw [h2, hl1]
      exact List.perm_insertionSort _ _
    have hdc : Different tol cs := different_perm hperm.symm hdiff
    have hle : cs.Pairwise (· ≤ ·) := by
      rw [h2]
      exact List.pairwise_insertionSort _ _
    refine ⟨h1, hdiff, hperm, ?_, h3, h4, ?_⟩
    · have hnd := different_nodup htol hdc
      have := hle.and hnd
      exact this.imp fun h => lt_of_le_of_ne h.1 h.2
    · intro m c hc
      have hm := (List.getElem?_eq_some_iff.1 hc).1
      have hk : mp[m]? = some mp[m] := List.getElem?_eq_getElem (by omega)
      refine ⟨mp[m], hk, ?_⟩
      obtain ⟨x, h7, h8⟩ := (h5 m mp[m]).1 hk
      have hx : x ∈ cs := hperm.symm.subset (List.mem_of_getElem? h7)
      obtain ⟨m', hm'⟩ := List.mem_iff_getElem?.1 hx
      have := h8.unique (firstNear_of_different htol hdc hm')
      subst this
      rw [hc] at hm'
      rw [h7, ← hm']
  · rintro ⟨h1, h2, h3, h4, h5, h6, h7⟩
    have hcol : collect tol ms [] = ms := collect_all tol ms [] h2
    have hdc : Different tol cs := different_perm h3.symm h2
    refine ⟨⟨h1, ?_, h5⟩, h6, ?_, ?_⟩
    · rw [hcol]
      exact (h3.trans (List.perm_insertionSort (· ≤ ·) ms).symm).eq_of_pairwise' (h4.imp le_of_lt) (List.pairwise_insertionSort _ _)
    · intro m k
      constructor
      · intro hk
        have hm : m < cs.length := by
          have := (List.getElem?_eq_some_iff.1 hk).1
          omega
        obtain ⟨k', h8, h9⟩ := h7 m cs[m] (List.getElem?_eq_getElem hm)
        rw [hk] at h8
        obtain rfl := Option.some.inj h8
        exact ⟨cs[m], h9, firstNear_of_different htol hdc (List.getElem?_eq_getElem hm)⟩
      · rintro ⟨x, hx, hfn⟩
        have hxc : x ∈ cs := h3.symm.subset (List.mem_of_getElem? hx)
        obtain ⟨m', hm'⟩ := List.mem_iff_getElem?.1 hxc
        have := hfn.unique (firstNear_of_different htol hdc hm')
        subst this
        obtain ⟨k', h8, h9⟩ := h7 m x hm'
        rw [h8]
        have hnd := different_nodup htol h2
        obtain ⟨a1, a2⟩ := List.getElem?_eq_some_iff.1 hx
        obtain ⟨b1, b2⟩ := List.getElem?_eq_some_iff.1 h9
        have : k' = k := (List.Nodup.getElem_inj_iff hnd).1 (b2.trans a2.symm)
        rw [this]
    · intro k hk
      have hxc : ms[k] ∈ cs := h3.symm.subset (List.getElem_mem hk)
      obtain ⟨m, hm⟩ := List.mem_iff_getElem?.1 hxc
      obtain ⟨k', h8, h9⟩ := h7 m _ hm
      refine ⟨m, ?_⟩
      rw [h8]
      have hnd := different_nodup htol h2
      obtain ⟨b1, b2⟩ := List.getElem?_eq_some_iff.1 h9
      have : k' = k := (List.Nodup.getElem_inj_iff hnd).1 b2
      rw [this]

/-- all other files end the program; only a file without entries is read out of range. -/
theorem readFile_ub (tol : K) (ms : List K) : readFile tol ms = .ub ↔ ms = [] := by
  unfold readFile
  constructor
  · intro h
    cases hr : readMassBins tol ms with
    | terminate => rw [hr] at h; cases h
    | ub => exact (readMassBins_ub tol ms).1 hr
    | ok cs =>
      rw [hr] at h
      dsimp only at h
      cases hc : checkMassBins tol cs ms with
      | terminate => rw [hc] at h; cases h
      | ub => exact absurd hc (checkMassBins_not_ub tol cs ms)
      | ok mp => rw [hc] at h; cases h
  · rintro rfl
    rfl

/-- a file with two results for one mass bin, or with the same result twice, ends the program. -/
theorem readFile_two (tol : K) (htol : 0 < tol) (ms : List K) (h0 : ms ≠ []) (h : ¬ Different tol ms) : readFile tol ms = .terminate := by
  cases hr : readFile tol ms with
  | terminate => rfl
  | ub => exact absurd ((readFile_ub tol ms).1 hr) h0
  | ok p =>
    obtain ⟨cs, mp⟩ := p
    exact absurd ((readFile_ok tol htol ms cs mp).1 hr).2.1 h

end Rpwa.FitRead
