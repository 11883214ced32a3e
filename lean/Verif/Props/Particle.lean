import Verif.Model.Particle
import Mathlib.Tactic
/-!
Properties C11 (names and charge), C12 (antiparticles), C13 (table look-up and matching), C14 (dump/read).
-/
namespace Rpwa.Particle

/-! ### C11 -/

/-- a nonzero decimal digit -/
def NonzeroDigit (c : Char) : Prop := c ∈ ['1', '2', '3', '4', '5', '6', '7', '8', '9']

private theorem digitVal_ne (c : Char) : digitVal c ≠ 0 ↔ NonzeroDigit c := by
  unfold digitVal NonzeroDigit
  constructor
  · intro h
    split_ifs at h with hd
    · have h1 : c.toNat ≠ 48 := fun e => h (by rw [e]; rfl)
      have hd' : 48 ≤ c.toNat ∧ c.toNat ≤ 57 := by
        simp only [Char.isDigit, Bool.and_eq_true, decide_eq_true_eq, ge_iff_le, UInt32.le_iff_toNat_le] at hd
        exact hd
      have hc : Char.ofNat c.toNat = c := Char.ofNat_toNat c
      obtain ⟨h2, h3⟩ := hd'
      rw [← hc]
      interval_cases c.toNat
      · exact absurd rfl h1
      all_goals decide
    · exact absurd rfl h
  · intro h
    simp only [List.mem_cons, List.not_mem_nil, or_false] at h
    rcases h with rfl | rfl | rfl | rfl | rfl | rfl | rfl | rfl | rfl <;> decide

private theorem signString_cases (q : Int) :
    ∃ sc, signString q = [sc] ∧ (sc = '+' ∨ sc = '0' ∨ sc = '-') ∧ signOfChar sc = signum q := by
  unfold signString signum
  split_ifs with h1 h2
  · exact ⟨'-', rfl, by decide, by decide⟩
  · exact ⟨'+', rfl, by decide, by decide⟩
  · exact ⟨'0', rfl, by decide, by decide⟩

private theorem signum_mul_natAbs (q : Int) : signum q * (q.natAbs : Int) = q := by
  unfold signum; split_ifs <;> omega

private theorem parse_digit (b : Name) (n : Nat) (sc : Char) (h1 : 1 ≤ n) (h9 : n ≤ 9) (hs : sc = '+' ∨ sc = '0' ∨ sc = '-') :
    chargeFromName (b ++ digitString n ++ [sc]) = .ok (b, signOfChar sc * (n : Int)) := by
  have hd : digitString n = [Char.ofNat ('0'.toNat + n)] := by unfold digitString; rw [if_pos (by omega)]
  have hv : digitVal (Char.ofNat ('0'.toNat + n)) = n := by interval_cases n <;> decide
  unfold chargeFromName
  rw [hd]
  simp only [List.reverse_append, List.reverse_cons, List.reverse_nil, List.nil_append, List.cons_append]
  rw [if_pos hs, hv, if_pos (by omega)]
  simp

private theorem parse_plain (b : Name) (c sc : Char) (hs : sc = '+' ∨ sc = '0' ∨ sc = '-') :
    chargeFromName (b ++ [c] ++ [sc]) =
      if digitVal c ≠ 0 then .ok (b, signOfChar sc * (digitVal c : Int)) else .ok (b ++ [c], signOfChar sc) := by
  unfold chargeFromName
  simp only [List.reverse_append, List.reverse_cons, List.reverse_nil, List.nil_append, List.cons_append]
  rw [if_pos hs]
  simp

/-- C11: writing a bare name with a charge and parsing it back gives the same bare name and charge **exactly** when the bare
name is not empty and either the charge has absolute value 2 … 9, or it is -1, 0, +1 and the bare name does not end in a
digit 1 … 9. -/
theorem name_roundtrip_iff (b : Name) (q : Int) :
    chargeFromName (nameWithCharge b q) = .ok (b, q) ↔
      b ≠ [] ∧ ((2 ≤ q.natAbs ∧ q.natAbs ≤ 9) ∨ (q.natAbs ≤ 1 ∧ ∀ c, b.getLast? = some c → ¬ NonzeroDigit c)) := by
  rcases List.eq_nil_or_concat b with rfl | ⟨b', c, hb⟩
  · simp [nameWithCharge, chargeFromName]
  · rw [List.concat_eq_append] at hb
    have hne : b ≠ [] := by rw [hb]; simp
    obtain ⟨sc, e1, e2, e3⟩ := signString_cases q
    unfold nameWithCharge
    rw [if_pos hne, e1]
    by_cases h1 : q.natAbs > 1
    · rw [if_pos h1]
      by_cases h9 : q.natAbs ≤ 9
      · rw [parse_digit b q.natAbs sc (by omega) h9 e2, e3, signum_mul_natAbs]
        simp only [true_iff]
        exact ⟨hne, Or.inl ⟨by omega, h9⟩⟩
      · have : digitString q.natAbs = [] := by unfold digitString; rw [if_neg (by omega)]
        rw [this, List.append_nil]
        constructor
        · intro h
          exfalso
          rw [hb, parse_plain b' c sc e2] at h
          have hs : (signOfChar sc).natAbs ≤ 1 := by rw [e3]; unfold signum; split_ifs <;> simp
          split_ifs at h with hd
          · simp only [Outcome.ok.injEq, Prod.mk.injEq] at h
            have hlen := congrArg List.length h.1
            simp at hlen
          · simp only [Outcome.ok.injEq, Prod.mk.injEq] at h
            rw [← h.2] at h9; omega
        · rintro ⟨_, h | h⟩ <;> omega
    · rw [if_neg h1, hb, parse_plain b' c sc e2]
      have hq : signum q = q := by unfold signum; split_ifs <;> omega
      split_ifs with hd
      · constructor
        · intro h
          simp only [Outcome.ok.injEq, Prod.mk.injEq] at h
          have hlen := congrArg List.length h.1
          simp at hlen
        · rintro ⟨_, h | h⟩
          · omega
          · exact absurd ((digitVal_ne c).1 hd) (h.2 c (by simp))
      · rw [e3, hq]
        simp only [true_iff]
        refine ⟨by simp, Or.inr ⟨by omega, ?_⟩⟩
        intro c' hc'
        simp at hc'
        subst hc'
        exact fun hn => hd ((digitVal_ne c).2 hn)

/-- non-vacuity: `Delta(1232)2+` and `pi-`. -/
example : chargeFromName (nameWithCharge "Delta(1232)".toList 2) = .ok ("Delta(1232)".toList, 2) ∧
    nameWithCharge "Delta(1232)".toList 2 = "Delta(1232)2+".toList ∧
    chargeFromName "pi-".toList = .ok ("pi".toList, -1) := by decide

/-- C11, consequence: names with charge are never shared by two particles with well-formed bare names. -/
theorem name_injective (b b' : Name) (q q' : Int)
    (h : b ≠ [] ∧ ((2 ≤ q.natAbs ∧ q.natAbs ≤ 9) ∨ (q.natAbs ≤ 1 ∧ ∀ c, b.getLast? = some c → ¬ NonzeroDigit c)))
    (h' : b' ≠ [] ∧ ((2 ≤ q'.natAbs ∧ q'.natAbs ≤ 9) ∨ (q'.natAbs ≤ 1 ∧ ∀ c, b'.getLast? = some c → ¬ NonzeroDigit c)))
    (e : nameWithCharge b q = nameWithCharge b' q') : b = b' ∧ q = q' := by
  have h1 := (name_roundtrip_iff b q).2 h
  have h2 := (name_roundtrip_iff b' q').2 h'
  rw [e, h2] at h1
  simp only [Outcome.ok.injEq, Prod.mk.injEq] at h1
  exact ⟨h1.1.symm, h1.2.symm⟩

/-- Without the side condition names collide: `a1` with charge + and `a` with charge +1 written as digit. -/
theorem name_not_injective : chargeFromName (nameWithCharge "pi2".toList 1) = .ok ("pi".toList, 2) := by decide

/-! ### C12 -/

/-- bare names as the data table uses them: not empty, not ending in a charge character. -/
def CleanName (n : Name) : Prop := ∃ c, n.getLast? = some c ∧ c ≠ '+' ∧ c ≠ '0' ∧ c ≠ '-'

/-- records as the setters produce them -/
structure Regular (p : Props) : Prop where
  nm : CleanName p.name
  an : CleanName p.antiName
  q : p.charge.natAbs < 10
  m2 : p.mass2 = p.mass * p.mass
  iso : 0 ≤ p.isospin
  spin : 0 ≤ p.J
  g : p.G ∈ [-1, 0, 1]
  par : p.P ∈ [-1, 0, 1]
  c : p.C ∈ [-1, 0, 1]

private theorem clean_parse (n : Name) (h : CleanName n) : chargeFromName n = .ok (n, 0) := by
  obtain ⟨c, h1, h2, h3, h4⟩ := h
  unfold chargeFromName
  rw [List.getLast?_eq_head?_reverse] at h1
  cases hr : n.reverse with
  | nil => rw [hr] at h1; simp at h1
  | cons x xs =>
    rw [hr] at h1
    simp only [List.head?_cons, Option.some.injEq] at h1
    subst h1
    simp [h2, h3, h4]

private theorem signum_id (z : Int) (h : z ∈ [-1, 0, 1]) : signum z = z := by
  simp only [List.mem_cons, List.not_mem_nil, or_false] at h
  rcases h with rfl | rfl | rfl <;> decide

/-- the mathematical conjugate of a record: names swapped, additive quantum numbers reversed, the rest kept. -/
def conjugate (p : Props) : Props :=
  { p with name := p.antiName, antiName := p.name, charge := -p.charge, baryonNmb := -p.baryonNmb,
           strangeness := -p.strangeness, charm := -p.charm, beauty := -p.beauty, decays := [] }

private theorem nameWithCharge_zero_inj {a b : Name} (h : nameWithCharge a 0 = nameWithCharge b 0) : a = b := by
  unfold nameWithCharge at h
  have e : signString 0 = ['0'] := rfl
  simp only [Int.natAbs_zero, gt_iff_lt, not_lt_zero, if_false, e] at h
  split_ifs at h with h1 h2 h2
  · exact List.append_cancel_right h
  · simp at h2; rw [h2] at h; simp at h
  · simp at h1; rw [h1] at h; simp at h
  · simp at h1 h2; rw [h1, h2]

private theorem own_fields (p : Props) (h : p.isItsOwnAntiPart = true) :
    p.name = p.antiName ∧ p.charge = 0 ∧ p.baryonNmb = 0 ∧ p.strangeness = 0 ∧ p.charm = 0 ∧ p.beauty = 0 := by
  simp only [Props.isItsOwnAntiPart, Bool.and_eq_true, decide_eq_true_eq] at h
  obtain ⟨⟨⟨⟨⟨⟨⟨_, h1⟩, h2⟩, h3⟩, _⟩, h4⟩, h5⟩, h6⟩ := h
  refine ⟨?_, h2, h3, h4, h5, h6⟩
  unfold Props.fullName Props.antiFullName at h1
  rw [h2] at h1
  exact nameWithCharge_zero_inj h1

/-- C12: `antiPartProperties` returns the conjugate record, for every regular record. -/
theorem antiPart_conjugate (p : Props) (h : Regular p) : antiPartProperties p = .ok (conjugate p) := by
  unfold antiPartProperties
  split_ifs with ho
  · obtain ⟨h1, h2, h3, h4, h5, h6⟩ := own_fields p ho
    simp [conjugate, h1, h2, h3, h4, h5, h6]
  · have e1 : Props.default.setName p.antiName = .ok { Props.default with name := p.antiName } := by
      show Outcome.bind _ _ = _
      rw [clean_parse _ h.an]; rfl
    have e2 : ∀ a : Props, a.setAntiPartName p.name = .ok { a with antiName := p.name } := by
      intro a
      show Outcome.bind (stripCharge p.name) _ = _
      unfold stripCharge
      rw [clean_parse _ h.nm]; rfl
    have e3 : ∀ a : Props, a.setCharge (-p.charge) = .ok { a with charge := -p.charge } := by
      intro a; unfold Props.setCharge; rw [if_pos (by have := h.q; omega)]
    simp only [e1, e2, e3, Outcome.ok_bind, Outcome.pure_eq]
    simp only [conjugate, Props.setMass, signum_id _ h.g, signum_id _ h.par, signum_id _ h.c, h.m2,
      Int.natAbs_of_nonneg h.iso, Int.natAbs_of_nonneg h.spin]

private theorem conj_regular (p : Props) (h : Regular p) : Regular (conjugate p) :=
  ⟨h.an, h.nm, by have := h.q; simp [conjugate]; omega, h.m2, h.iso, h.spin, h.g, h.par, h.c⟩

/-- C12: the antiparticle of the antiparticle is the particle (decay modes are not carried along). -/
theorem antiPart_involution (p : Props) (h : Regular p) :
    (do let a ← antiPartProperties p; antiPartProperties a) = .ok { p with decays := [] } := by
  show Outcome.bind _ _ = _
  rw [antiPart_conjugate p h]
  show antiPartProperties _ = _
  rw [antiPart_conjugate _ (conj_regular p h)]
  simp [conjugate]

/-- C12: what conjugation does to the observable quantum numbers, including the isospin projection
(Gell-Mann–Nishijima: 2·I₃ = 2·Q − (B + S + C + b)). -/
theorem antiPart_quantum_numbers (p a : Props) (h : Regular p) (ha : antiPartProperties p = .ok a) :
    a.charge = -p.charge ∧ a.baryonNmb = -p.baryonNmb ∧ a.strangeness = -p.strangeness ∧ a.charm = -p.charm ∧
    a.beauty = -p.beauty ∧ a.isospinProj = -p.isospinProj ∧ a.isospin = p.isospin ∧ a.J = p.J ∧ a.P = p.P ∧
    a.C = p.C ∧ a.G = p.G ∧ a.mass = p.mass ∧ a.width = p.width ∧
    a.fullName = p.antiFullName ∧ a.antiFullName = p.fullName ∧
    2 * p.charge = p.isospinProj + (p.baryonNmb + p.strangeness + p.charm + p.beauty) := by
  rw [antiPart_conjugate p h, Outcome.ok.injEq] at ha
  subst ha
  refine ⟨rfl, rfl, rfl, rfl, rfl, ?_, rfl, rfl, rfl, rfl, rfl, rfl, rfl, rfl, ?_, ?_⟩
  · simp [conjugate, Props.isospinProj]; ring
  · simp [conjugate, Props.antiFullName, Props.fullName]
  · simp [Props.isospinProj]

/-- the Δ++ (names `Delta(1232)`, `Deltabar(1232)`) as a regular record -/
private def deltaPP : Props :=
  ⟨"Delta(1232)".toList, "Deltabar(1232)".toList, 2, 1232 / 1000, (1232 / 1000) * (1232 / 1000), 117 / 1000, 1, 3, 0, 0, 0, 0, 3, 1, 0, []⟩

/-- non-vacuity: a doubly charged, not self-conjugate record is regular. -/
example : Regular deltaPP :=
  ⟨⟨')', by decide, by decide⟩, ⟨')', by decide, by decide⟩, by decide, rfl, by decide, by decide, by decide, by decide, by decide⟩

/-- a self-conjugate record (π0) -/
private def pi0 : Props :=
  ⟨"pi".toList, "pi".toList, 0, 135 / 1000, (135 / 1000) * (135 / 1000), 0, 0, 2, 0, 0, 0, -1, 0, -1, 1, []⟩
example : pi0.isItsOwnAntiPart = true ∧ deltaPP.isItsOwnAntiPart = false := by decide

/-- Refutation of the unrestricted claim: a bare antiparticle name that ends in '0' loses that character, so conjugating
twice does not return the record (bare name `a0`, as produced by reading the name `a0+`). -/
theorem antiPart_not_involution_unclean :
    ∃ p : Props, Props.default.setName "a0+".toList = .ok { Props.default with name := "a0".toList, charge := 1 } ∧
      p.name = "a0".toList ∧ ∃ a, antiPartProperties p = .ok a ∧ ∃ b, antiPartProperties a = .ok b ∧ b.name = "a".toList := by
  have ho : ∀ q : Int, q ≠ 0 → ∀ n m : Name, (Props.mk n m q 0 0 0 0 2 0 0 0 (-1) 0 1 0 []).isItsOwnAntiPart = false := by
    intro q hq n m; simp [Props.isItsOwnAntiPart, hq]
  have c1 : chargeFromName "a0".toList = .ok ("a".toList, 0) := by decide
  have c2 : chargeFromName "a".toList = .ok ("a".toList, 0) := by decide
  have c3 : chargeFromName "a0+".toList = .ok ("a0".toList, 1) := by decide
  refine ⟨⟨"a0".toList, "a0".toList, 1, 0, 0, 0, 0, 2, 0, 0, 0, -1, 0, 1, 0, []⟩, ?_, rfl, ?_⟩
  · simp only [Props.setName, c3, Outcome.ok_bind, Props.setCharge]; rfl
  refine ⟨⟨"a".toList, "a".toList, -1, 0, 0, 0, 0, 2, 0, 0, 0, -1, 0, 1, 0, []⟩, ?_, ?_⟩
  · simp only [antiPartProperties, ho 1 (by decide), Props.setName, Props.setAntiPartName, stripCharge, c1, Props.setCharge, Outcome.map,
      Outcome.ok_bind, Outcome.pure_eq, Props.setMass]
    simp [Props.default, signum]
  · refine ⟨⟨"a".toList, "a".toList, 1, 0, 0, 0, 0, 2, 0, 0, 0, -1, 0, 1, 0, []⟩, ?_, rfl⟩
    simp only [antiPartProperties, ho (-1) (by decide), Props.setName, Props.setAntiPartName, stripCharge, c2, Props.setCharge, Outcome.map,
      Outcome.ok_bind, Outcome.pure_eq, Props.setMass]
    simp [Props.default, signum]

/-- C12 for decay modes: if every daughter is in the table together with its conjugate, converting the list of daughters
twice returns it. -/
theorem antiDaughters_involution (t : Table) (ns : List Name)
    (h : ∀ n ∈ ns, ∃ e, entry t n = some e ∧ e.fullName = n ∧
      ∃ e', entry t e.antiFullName = some e' ∧ e'.antiFullName = n) :
    (do let l ← antiDaughters t ns; antiDaughters t l) = .ok ns := by
  suffices h' : ∃ l, antiDaughters t ns = .ok l ∧ antiDaughters t l = .ok ns by
    obtain ⟨l, h1, h2⟩ := h'
    show Outcome.bind _ _ = _
    rw [h1]; exact h2
  induction ns with
  | nil => exact ⟨[], rfl, rfl⟩
  | cons n ns ih =>
    obtain ⟨l, h1, h2⟩ := ih (fun m hm => h m (List.mem_cons_of_mem _ hm))
    obtain ⟨e, g1, _, e', g3, g4⟩ := h n List.mem_cons_self
    have step : ∀ (m : Name) (x : Props) (ms r : List Name), entry t m = some x → antiDaughters t ms = .ok r →
        antiDaughters t (m :: ms) = .ok (x.antiFullName :: r) := by
      intro m x ms r hx hr
      have hf : fillFromDataTable t m = .ok (some x) := by
        unfold fillFromDataTable; rw [hx]; rfl
      show Outcome.bind _ _ = _
      rw [hf]
      show Outcome.bind _ _ = _
      rw [hr]; rfl
    refine ⟨e.antiFullName :: l, step n e ns l g1 h1, ?_⟩
    rw [step _ e' _ _ g3 h2, g4]

/-! ### C13 -/

/-- table sorted strictly by key (`std::map`) and every key is the name of its entry -/
def WfTable (t : Table) : Prop := t.Pairwise (fun a b => a.1 < b.1) ∧ ∀ e ∈ t, e.2.fullName = e.1

private theorem entry_insertSorted (t : Table) (n : Name) (p : Props) (hn : entry t n = none) (m : Name) :
    entry (insertSorted n p t) m = if m = n then some p else entry t m := by
  induction t with
  | nil =>
    by_cases h : m = n
    · simp [insertSorted, entry, h]
    · simp [insertSorted, entry, h, Ne.symm h]
  | cons e es ih =>
    unfold insertSorted
    split_ifs with h1 h2 h2
    · subst h2; simp [entry]
    · simp [entry, Ne.symm h2]
    · subst h2
      have hne : e.1 ≠ m := by
        intro hc; simp [entry, List.find?_cons, hc] at hn
      have hn' : entry es m = none := by simpa [entry, List.find?_cons, hne] using hn
      have := ih hn'
      rw [if_pos rfl] at this
      simpa [entry, List.find?_cons, hne] using this
    · have hne : e.1 ≠ n := by
        intro hc; simp [entry, List.find?_cons, hc] at hn
      have hn' : entry es n = none := by simpa [entry, List.find?_cons, hne] using hn
      have := ih hn'
      rw [if_neg h2] at this
      by_cases hm : e.1 = m
      · simp [entry, List.find?_cons, hm]
      · simpa [entry, List.find?_cons, hm] using this

/-- C13: after any sequence of insertions into any table, looking up a name returns the entry the table already had, and
otherwise the **first** inserted record with that name; no insertion replaces an entry. -/
theorem lookup_after_insertions (t : Table) (ps : List Props) (n : Name) :
    entry (ps.foldl (fun t p => (addEntry t p).1) t) n =
      match entry t n with
      | some e => some e
      | none => ps.find? (fun p => p.fullName = n) := by
  induction ps generalizing t with
  | nil => simp only [List.foldl_nil, List.find?_nil]; cases entry t n <;> rfl
  | cons p ps ih =>
    rw [List.foldl_cons, ih]
    by_cases hp : (entry t p.fullName).isSome = true
    · have : (addEntry t p).1 = t := by simp only [addEntry, hp, if_true]
      rw [this]
      cases he : entry t n with
      | some e => rfl
      | none =>
        have hne : p.fullName ≠ n := by intro hc; rw [hc, he] at hp; simp at hp
        simp [List.find?_cons, hne]
    · have : (addEntry t p).1 = insertSorted p.fullName p t := by simp [addEntry, hp]
      rw [this, entry_insertSorted _ _ _ (by simpa using hp)]
      by_cases hne : n = p.fullName
      · subst hne
        have hno : entry t p.fullName = none := by simpa using hp
        simp [hno]
      · rw [if_neg hne]
        cases he : entry t n with
        | some e => rfl
        | none => simp [List.find?_cons, Ne.symm hne]

/-- C13: `addEntry` reports success exactly when the name was not in the table. -/
theorem addEntry_flag (t : Table) (p : Props) : (addEntry t p).2 = true ↔ entry t p.fullName = none := by
  unfold addEntry
  simp only
  cases h : entry t p.fullName <;> simp

private theorem name_lt_or (a b : Name) : a < b ∨ a = b ∨ b < a := by
  rcases lt_trichotomy a b with h | h | h
  · exact Or.inl h
  · exact Or.inr (Or.inl h)
  · exact Or.inr (Or.inr h)

private theorem mem_insertSorted (t : Table) (n : Name) (p : Props) (x : Name × Props) :
    x ∈ insertSorted n p t ↔ x = (n, p) ∨ x ∈ t := by
  induction t with
  | nil => simp [insertSorted]
  | cons e es ih =>
    unfold insertSorted
    split_ifs
    · simp
    · simp only [List.mem_cons, ih]; tauto

/-- C13: the table stays sorted with unique names under insertion, so iteration is in name order. -/
theorem addEntry_wf (t : Table) (p : Props) (h : WfTable t) : WfTable (addEntry t p).1 := by
  unfold addEntry
  simp only
  split_ifs with hs
  · exact h
  · have hno : entry t p.fullName = none := by simpa using hs
    have hkeys : ∀ e ∈ t, e.1 ≠ p.fullName := by
      intro e he hc
      simp only [entry, Option.map_eq_none_iff, List.find?_eq_none] at hno
      exact hno e he (by simpa using hc)
    refine ⟨?_, ?_⟩
    · have key : ∀ t : Table, t.Pairwise (fun a b => a.1 < b.1) → (∀ e ∈ t, e.1 ≠ p.fullName) →
          (insertSorted p.fullName p t).Pairwise (fun a b => a.1 < b.1) := by
        intro t
        induction t with
        | nil => intro _ _; simp [insertSorted]
        | cons e es ih =>
          intro hp hk
          unfold insertSorted
          rw [List.pairwise_cons] at hp
          split_ifs with hlt
          · rw [List.pairwise_cons]
            refine ⟨?_, List.pairwise_cons.2 hp⟩
            intro x hx
            rcases List.mem_cons.1 hx with rfl | hx
            · exact hlt
            · exact lt_trans hlt (hp.1 x hx)
          · rw [List.pairwise_cons]
            refine ⟨?_, ih hp.2 (fun x hx => hk x (List.mem_cons_of_mem _ hx))⟩
            intro x hx
            rw [mem_insertSorted] at hx
            rcases hx with rfl | hx
            · rcases name_lt_or e.1 p.fullName with h1 | h1 | h1
              · exact h1
              · exact absurd h1 (hk e List.mem_cons_self)
              · exact absurd h1 hlt
            · exact hp.1 x hx
      exact key t h.1 hkeys
    · intro e he
      rw [mem_insertSorted] at he
      rcases he with rfl | he
      · rfl
      · exact h.2 e he

example : WfTable [] ∧ WfTable (addEntry (addEntry [] deltaPP).1 pi0).1 :=
  ⟨⟨List.Pairwise.nil, by simp⟩, addEntry_wf _ _ (addEntry_wf _ _ ⟨List.Pairwise.nil, by simp⟩)⟩

/-- the quantum number `k` (one of the ten selectable ones) of two records agrees -/
def agree (k : String) (a b : Props) : Prop :=
  match k with
  | "charge" => a.charge = b.charge
  | "baryonNmb" => a.baryonNmb = b.baryonNmb
  | "I" => a.isospin = b.isospin
  | "strangeness" => a.strangeness = b.strangeness
  | "charm" => a.charm = b.charm
  | "beauty" => a.beauty = b.beauty
  | "G" => a.G = b.G
  | "J" => a.J = b.J
  | "P" => a.P = b.P
  | "C" => a.C = b.C
  | _ => True

/-- the selectable quantum numbers -/
def selectable : List String := ["charge", "baryonNmb", "I", "strangeness", "charm", "beauty", "G", "J", "P", "C"]

private theorem contains_iff (pat s : Name) : contains pat s = true ↔ pat <:+: s := by
  unfold contains
  rw [List.any_eq_true]
  constructor
  · rintro ⟨t, ht, hp⟩
    rw [List.mem_tails] at ht
    exact (List.isPrefixOf_iff_prefix.1 hp).isInfix.trans ht.isInfix
  · rintro ⟨a, b, h⟩
    refine ⟨pat ++ b, ?_, List.isPrefixOf_iff_prefix.2 (List.prefix_append _ _)⟩
    rw [List.mem_tails]
    exact ⟨a, by rw [← h]; simp⟩

/-- declarative meaning of one selection request -/
structure Selected (prototype : Props) (sel : String) (minMass minMassWidthFactor : Rat) (whiteList blackList : List Name)
    (decay : DecayMode) (forceDecayCheck : Bool) (p : Props) : Prop where
  /-- every quantum number named in the selection string (all of them for "allQn") agrees with the prototype -/
  qn : ∀ k ∈ selectable, ("allQn".toList <:+: sel.toList ∨ k.toList <:+: sel.toList) → agree k p prototype
  /-- mass window -/
  mass : 0 < minMass → minMass ≤ p.mass + minMassWidthFactor * p.width
  /-- white list, if there is one -/
  white : whiteList ≠ [] → p.fullName ∈ whiteList ∨ p.name ∈ whiteList
  /-- black list -/
  black : p.fullName ∉ blackList ∧ p.name ∉ blackList
  /-- decay constraint: particles with known decays must have a matching one (undefined L, S match anything);
  particles without known decays pass unless the check is forced -/
  dec : if decay.daughters ≠ 0 ∧ p.decays ≠ [] then
      ∃ d ∈ p.decays, d.daughters = decay.daughters ∧ (d.L = -1 ∨ decay.L = -1 ∨ d.L = decay.L) ∧
        (d.S = -1 ∨ decay.S = -1 ∨ d.S = decay.S)
    else forceDecayCheck = false

private theorem matchesSel_iff (l r : Props) (sel : String) :
    matchesSel l r sel = true ↔
      ∀ k ∈ selectable, ("allQn".toList <:+: sel.toList ∨ k.toList <:+: sel.toList) → agree k l r := by
  have aux : ∀ (k : String) (P : Prop) [Decidable P],
      ((!contains k.toList sel.toList && !contains "allQn".toList sel.toList) || decide P) = true ↔
      (("allQn".toList <:+: sel.toList ∨ k.toList <:+: sel.toList) → P) := by
    intro k P _
    rw [← contains_iff, ← contains_iff]
    cases contains k.toList sel.toList <;> cases contains "allQn".toList sel.toList <;> simp
  unfold matchesSel
  simp only [Bool.and_eq_true, aux]
  simp only [selectable, List.forall_mem_cons, List.not_mem_nil, false_imp_iff, implies_true, and_true, agree]
  tauto

private theorem inNameList_iff (p : Props) (l : List Name) : inNameList p l = true ↔ (p.fullName ∈ l ∨ p.name ∈ l) := by
  unfold inNameList
  simp only [List.any_eq_true, Bool.or_eq_true, decide_eq_true_eq]
  constructor
  · rintro ⟨n, hn, rfl | rfl⟩
    · exact Or.inl hn
    · exact Or.inr hn
  · rintro (h | h)
    · exact ⟨_, h, Or.inl rfl⟩
    · exact ⟨_, h, Or.inr rfl⟩

private theorem eq_iff (a b : DecayMode) : a.eq b = true ↔
    a.daughters = b.daughters ∧ (a.L = -1 ∨ b.L = -1 ∨ a.L = b.L) ∧ (a.S = -1 ∨ b.S = -1 ∨ a.S = b.S) := by
  unfold DecayMode.eq
  split_ifs with h1 h2 h3
  · simp [h1]
  · simp only [Bool.false_eq_true, false_iff]; tauto
  · simp only [Bool.false_eq_true, false_iff]; tauto
  · simp only [true_iff]; push Not at h1; tauto

private theorem keepEntry_iff (prototype : Props) (sel : String) (mm mf : Rat) (wl bl : List Name) (d : DecayMode) (f : Bool) (p : Props) :
    keepEntry prototype sel mm mf wl bl d f p = true ↔ Selected prototype sel mm mf wl bl d f p := by
  have hdec : (if 0 < Multiset.card d.daughters ∧ 0 < p.decays.length then p.hasDecay d else !f) = true ↔
      (if d.daughters ≠ 0 ∧ p.decays ≠ [] then
        ∃ x ∈ p.decays, x.daughters = d.daughters ∧ (x.L = -1 ∨ d.L = -1 ∨ x.L = d.L) ∧ (x.S = -1 ∨ d.S = -1 ∨ x.S = d.S)
      else f = false) := by
    have hc : (0 < Multiset.card d.daughters ∧ 0 < p.decays.length) ↔ (d.daughters ≠ 0 ∧ p.decays ≠ []) := by
      rw [Multiset.card_pos, List.length_pos_iff]
    by_cases h : d.daughters ≠ 0 ∧ p.decays ≠ []
    · rw [if_pos (hc.2 h), if_pos h]
      unfold Props.hasDecay
      rw [List.any_eq_true]
      simp only [eq_iff]
    · rw [if_neg (fun h' => h (hc.1 h')), if_neg h]; simp
  unfold keepEntry
  constructor
  · intro h
    by_cases h1 : (!matchesSel p prototype sel) = true
    · rw [if_pos h1] at h; simp at h
    rw [if_neg h1] at h
    by_cases h2 : mm > 0 ∧ p.mass + mf * p.width < mm
    · rw [if_pos h2] at h; simp at h
    rw [if_neg h2] at h
    by_cases h3 : (!(wl.isEmpty || inNameList p wl)) = true
    · rw [if_pos h3] at h; simp at h
    rw [if_neg h3] at h
    by_cases h4 : inNameList p bl = true
    · rw [if_pos h4] at h; simp at h
    rw [if_neg h4] at h
    simp only at h
    have h5 : (if 0 < Multiset.card d.daughters ∧ 0 < p.decays.length then p.hasDecay d else !f) = true := by
      generalize (if 0 < Multiset.card d.daughters ∧ 0 < p.decays.length then p.hasDecay d else !f) = x at h
      cases x <;> simp_all
    refine ⟨(matchesSel_iff _ _ _).1 (by simpa using h1), ?_, ?_, ?_, ?_⟩
    · intro hm; push Not at h2; exact h2 hm
    · intro hw
      simp only [Bool.not_eq_true', Bool.not_eq_false, Bool.or_eq_true, List.isEmpty_iff] at h3
      exact (inNameList_iff p wl).1 (h3.resolve_left hw)
    · have := (inNameList_iff p bl).not.1 h4
      push Not at this; exact this
    · exact hdec.1 h5
  · intro h
    rw [if_neg (by rw [Bool.not_eq_true', (matchesSel_iff _ _ _).2 h.qn]; simp)]
    rw [if_neg (by rintro ⟨a, b⟩; exact absurd (h.mass a) (not_le.2 b))]
    rw [if_neg, if_neg]
    · simp only
      rw [hdec.2 h.dec]; rfl
    · rw [inNameList_iff]; push Not; exact h.black
    · by_cases hw : wl = []
      · simp [hw]
      · rw [(inNameList_iff p wl).2 (h.white hw)]; simp

/-- C13: the selection returns exactly the selected entries, each as often as it is in the table, in table order. -/
theorem entriesMatching_spec (t : Table) (prototype : Props) (sel : String) (mm mf : Rat) (wl bl : List Name)
    (d : DecayMode) (f : Bool) :
    (open Classical in
    entriesMatching t prototype sel mm mf wl bl d f =
      (t.map Prod.snd).filter (fun p => decide (Selected prototype sel mm mf wl bl d f p))) := by
  classical
  unfold entriesMatching
  have gen : ∀ (t : Table) (acc : List Props), t.foldl (fun acc e => if keepEntry prototype sel mm mf wl bl d f e.2 then acc ++ [e.2] else acc) acc =
      acc ++ (t.map Prod.snd).filter (fun p => decide (Selected prototype sel mm mf wl bl d f p)) := by
    intro t
    induction t with
    | nil => intro acc; simp
    | cons e es ih =>
      intro acc
      rw [List.foldl_cons, ih, List.map_cons, List.filter_cons]
      by_cases h : Selected prototype sel mm mf wl bl d f e.2
      · rw [if_pos ((keepEntry_iff _ _ _ _ _ _ _ _ _).2 h), if_pos (by simpa using h)]; simp
      · rw [if_neg (fun hc => h ((keepEntry_iff _ _ _ _ _ _ _ _ _).1 hc)), if_neg (by simpa using h)]
  simpa using gen t []

/-- C13, membership form. -/
theorem mem_entriesMatching (t : Table) (prototype : Props) (sel : String) (mm mf : Rat) (wl bl : List Name)
    (d : DecayMode) (f : Bool) (p : Props) :
    p ∈ entriesMatching t prototype sel mm mf wl bl d f ↔
      (∃ n, (n, p) ∈ t) ∧ Selected prototype sel mm mf wl bl d f p := by
  classical
  rw [entriesMatching_spec]
  simp [List.mem_filter]

/-- Note on `decayMode::operator ==`: with undefined L or S it is not transitive, so "has the decay" is a wildcard match and
not an equivalence. -/
theorem decayMode_eq_not_transitive :
    ∃ a b c : DecayMode, a.eq b = true ∧ b.eq c = true ∧ a.eq c = false :=
  ⟨⟨{['a']}, 0, -1, []⟩, ⟨{['a']}, -1, -1, []⟩, ⟨{['a']}, 2, -1, []⟩, by decide, by decide, by decide⟩

/-! ### C14 -/

/-- the documented file format: 13 columns (header of `particleDataTable.txt`; no column for the squared mass). -/
def fileLine (p : Props) : List Tok :=
  [.word p.fullName, .word p.antiFullName, doubleTok p.mass, doubleTok p.width,
   .int p.baryonNmb, .int p.isospin, .int p.strangeness, .int p.charm, .int p.beauty, .int p.G, .int p.J, .int p.P,
   .int p.C]

private theorem getDouble_doubleTok (q : Rat) (ts : List Tok) : getDouble (doubleTok q :: ts) = some (q, ts) := by
  unfold doubleTok
  split_ifs with h
  · simp only [getDouble]; congr 2; exact (Rat.coe_int_num_of_den_eq_one h)
  · rfl

/-- the charge suffix can be parsed off both names -/
def Parsable (p : Props) : Prop :=
  (p.name ≠ [] ∧ ((2 ≤ p.charge.natAbs ∧ p.charge.natAbs ≤ 9) ∨ (p.charge.natAbs ≤ 1 ∧ ∀ c, p.name.getLast? = some c → ¬ NonzeroDigit c))) ∧
  (p.antiName ≠ [] ∧ ((2 ≤ p.charge.natAbs ∧ p.charge.natAbs ≤ 9) ∨ (p.charge.natAbs ≤ 1 ∧ ∀ c, p.antiName.getLast? = some c → ¬ NonzeroDigit c)))

/-- C14, correct part: a line in the documented 13-column format is read back as the same record (decay modes are kept in
another file). Missing for the full claim: `dump` does not write this format, see `not_dump_read`. -/
theorem read_fileLine_partial (p : Props) (h : Regular p) (hp : Parsable p) :
    readLine (fileLine p) = .ok (some { p with decays := [] }) := by
  have e1 := (name_roundtrip_iff p.name p.charge).2 hp.1
  have e2 := (name_roundtrip_iff p.antiName (-p.charge)).2 (by simpa using hp.2)
  have s1 : Props.default.setName p.fullName = .ok { Props.default with name := p.name, charge := p.charge } := by
    show (chargeFromName (nameWithCharge p.name p.charge) >>= _) = _
    rw [e1]
    simp only [Outcome.ok_bind]
    unfold Props.setCharge; rw [if_pos h.q]
  have s2 : ∀ a : Props, a.setAntiPartName p.antiFullName = .ok { a with antiName := p.antiName } := by
    intro a
    show (stripCharge (nameWithCharge p.antiName (-p.charge)) >>= _) = _
    unfold stripCharge; rw [e2]; rfl
  have hparse : parseLine (fileLine p) = some ⟨p.fullName, p.antiFullName, p.mass, p.width,
      [p.baryonNmb, p.isospin, p.strangeness, p.charm, p.beauty, p.G, p.J, p.P, p.C]⟩ := by
    simp only [parseLine, fileLine, getWord, Option.bind_some, getDouble_doubleTok, getInts, getInt, Option.map_some]
  unfold readLine
  rw [hparse]
  simp only [fromRaw, s1, s2, Outcome.ok_bind, Outcome.pure_eq]
  simp only [Props.setMass, List.getD_cons_zero, List.getD_cons_succ, signum_id _ h.g, signum_id _ h.par, signum_id _ h.c, h.m2,
      Int.natAbs_of_nonneg h.iso, Int.natAbs_of_nonneg h.spin]
  rfl

example : Regular deltaPP ∧ Parsable deltaPP :=
  ⟨⟨⟨')', by decide, by decide⟩, ⟨')', by decide, by decide⟩, by decide, rfl, by decide, by decide, by decide, by decide, by decide⟩,
   ⟨by decide, Or.inl (by decide)⟩, ⟨by decide, Or.inl (by decide)⟩⟩

/-- Refutation of C14: a dumped record is **never** read back as the same record unless mass² happens to equal the width
(`dump` writes 14 columns including the squared mass, `read` expects 13). -/
theorem not_dump_read (p : Props) (h : p.mass2 ≠ p.width) : ∀ r, readLine (dump p) = .ok (some r) → r.width ≠ p.width := by
  intro r hr hw
  have hparse : ∀ raw, parseLine (dump p) = some raw → raw.width = p.mass2 := by
    intro raw hraw
    simp only [parseLine, dump, getWord, Option.bind_some, getDouble_doubleTok, Option.map_eq_some_iff] at hraw
    obtain ⟨is, _, rfl⟩ := hraw
    rfl
  unfold readLine at hr
  cases hp : parseLine (dump p) with
  | none => rw [hp] at hr; simp at hr
  | some raw =>
    rw [hp] at hr
    have hwid := hparse raw hp
    have hfill : ∀ x, fromRaw raw = .ok x → x.width = raw.width := by
      intro x hx
      unfold fromRaw at hx
      cases hs : Props.default.setName raw.name with
      | ok a =>
        rw [hs] at hx
        cases hs2 : a.setAntiPartName raw.antiName with
        | ok b =>
          simp only [Outcome.ok_bind, hs2, Outcome.pure_eq, Outcome.ok.injEq] at hx
          rw [← hx]
        | terminate => simp [hs2] at hx
        | ub => simp [hs2] at hx
      | terminate => rw [hs] at hx; simp at hx
      | ub => rw [hs] at hx; simp at hx
    simp only at hr
    cases hf : fromRaw raw with
    | ok x =>
      rw [hf] at hr
      simp only [Outcome.ok_bind, Outcome.pure_eq, Outcome.ok.injEq, Option.some.injEq] at hr
      subst hr
      rw [hfill x hf, hwid] at hw
      exact h hw
    | terminate => rw [hf] at hr; simp at hr
    | ub => rw [hf] at hr; simp at hr

/-- C14, a line that cannot be parsed is not skipped: the loop goes on with the default-constructed record and building its
antiparticle reads before the start of the empty name (undefined behaviour). -/
theorem malformed_line_ub (t : Table) (line : List Tok) (h : readLine line = .ok none) : readEntry t line = .ub := by
  unfold readEntry
  show Outcome.bind _ _ = _
  rw [h]
  rfl

/-- such lines exist: every dumped record with a fractional width. -/
theorem dump_fractional_width (p : Props) (h : p.width.den ≠ 1) : readLine (dump p) = .ok none := by
  have h1 : doubleTok p.width = .frac p.width := by unfold doubleTok; rw [if_neg h]
  have hp : parseLine (dump p) = none := by
    simp only [parseLine, dump, getWord, getDouble_doubleTok, Option.bind_some, h1, getInts, getInt, Option.bind_none,
      Option.map_none]
  unfold readLine
  rw [hp]

example : deltaPP.width.den ≠ 1 := by
  intro hd
  have hz := Rat.coe_int_num_of_den_eq_one hd
  have hw : deltaPP.width = 117 / 1000 := rfl
  have h2 : ((1000 * deltaPP.width.num : Int) : Rat) = 117 := by push_cast; rw [hz, hw]; norm_num
  have h3 : 1000 * deltaPP.width.num = 117 := by exact_mod_cast h2
  omega

end Rpwa.Particle
