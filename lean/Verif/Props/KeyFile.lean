import Verif.Spec.KeyFile
import Mathlib.Tactic.Linarith
import Mathlib.Tactic.NormNum
/-!
# C57: key files
-/
namespace Rpwa.KeyFile

open Rpwa.Particle Spec

theorem uint_int {n : ℕ} (h : n < 2 ^ 32) : uintOf (intOf n) = n := by
  unfold uintOf intOf
  split <;> omega

/-- a table particle is found by its name -/
theorem createParticle_table {t : Table} {p : Part} (h : FromTable t p) : createParticle t p.props.fullName = .ok p := by
  unfold createParticle fillFromDataTable
  rw [h.inTable]
  obtain ⟨_, h1, h2, h3⟩ := h
  cases p
  simp_all

theorem constructParticle_written {t : Table} {p : Part} (h : FromTable t p) (more : List (String × Setting))
    (h1 : more.lookup "spinProj" = none) (h2 : more.lookup "index" = none) :
    constructParticle t (.group (("name", .str p.props.fullName) :: more)) = .ok (some p) := by
  unfold constructParticle
  have e : (Setting.group (("name", .str p.props.fullName) :: more)).lookupStr "name" = some p.props.fullName := by
    simp [Setting.lookupStr, Setting.member]
  have e1 : (Setting.group (("name", .str p.props.fullName) :: more)).lookupInt "spinProj" = none := by
    simp [Setting.lookupInt, Setting.member, List.lookup_cons, h1]
  have e2 : (Setting.group (("name", .str p.props.fullName) :: more)).lookupInt "index" = none := by
    simp [Setting.lookupInt, Setting.member, List.lookup_cons, h2]
  rw [e]
  simp only [createParticle_table h, e1, e2]
  rfl

/-- members of a decay vertex group -/
theorem lookup_vertexKeys (prec : ℚ → ℚ) (isX : Bool) (md : MassDep) (L S : ℕ) (iso fs : List Setting) (n : String) :
    (vertexKeys prec isX md L S iso fs).lookup n =
      (if n = "massDep" then (massDepKeys prec isX md).lookup "massDep"
      else if n = "isobars" then (if iso = [] then none else some (.list iso))
      else if n = "L" then some (.int (intOf L)) else if n = "S" then some (.int (intOf S))
      else if n = "fsParticles" then (if fs = [] then none else some (.list fs)) else none) := by
  have hm : n ≠ "massDep" → (massDepKeys prec isX md).lookup n = none := by
    intro hn
    have b : (n == "massDep") = false := by simpa using hn
    unfold massDepKeys
    split <;> simp [List.lookup_cons, b]
  unfold vertexKeys listKey
  rw [List.lookup_append, List.lookup_append, List.lookup_append]
  by_cases h1 : n = "massDep"
  · subst h1
    rw [if_pos rfl]
    have : ∀ l : List Setting, (if l = [] then [] else [("isobars", Setting.list l)]).lookup "massDep" = none := by
      intro l; split <;> simp [List.lookup_cons]
    have h' : ∀ l : List Setting, (if l = [] then [] else [("fsParticles", Setting.list l)]).lookup "massDep" = none := by
      intro l; split <;> simp [List.lookup_cons]
    rw [this, h']
    simp [List.lookup_cons]
  · rw [hm h1, if_neg h1]
    by_cases h2 : n = "isobars"
    · subst h2
      by_cases hi : iso = [] <;> by_cases hf : fs = [] <;> simp [hi, hf, List.lookup_cons]
    · by_cases h3 : n = "L"
      · subst h3
        by_cases hi : iso = [] <;> by_cases hf : fs = [] <;> simp [hi, hf, List.lookup_cons]
      · by_cases h4 : n = "S"
        · subst h4
          by_cases hi : iso = [] <;> by_cases hf : fs = [] <;> simp [hi, hf, List.lookup_cons]
        · by_cases h5 : n = "fsParticles"
          · subst h5
            by_cases hi : iso = [] <;> by_cases hf : fs = [] <;> simp [hi, hf, List.lookup_cons]
          · have b : ∀ x, n ≠ x → (n == x) = false := fun x hx => by simpa using hx
            by_cases hi : iso = [] <;> by_cases hf : fs = [] <;>
              simp [hi, hf, List.lookup_cons, b _ h2, b _ h3, b _ h4, b _ h5, h2, h3, h4, h5]

/-- the order of the lists -/
theorem index_vertexKeys (prec : ℚ → ℚ) (isX : Bool) (md : MassDep) (L S : ℕ) (iso fs : List Setting)
    (pre : List (String × Setting)) (hp : pre = [] ∨ ∃ s, pre = [("name", s)]) (hi : iso ≠ []) :
    ¬ (Setting.group (pre ++ vertexKeys prec isX md L S iso fs)).index "fsParticles"
      < (Setting.group (pre ++ vertexKeys prec isX md L S iso fs)).index "isobars" := by
  have hm : massDepKeys prec isX md = [] ∨ ∃ s, massDepKeys prec isX md = [("massDep", s)] := by
    unfold massDepKeys
    split <;> simp
  unfold Setting.index vertexKeys listKey
  rw [if_neg hi]
  rcases hp with rfl | ⟨s, rfl⟩ <;> rcases hm with hm | ⟨s', hm⟩ <;> rw [hm] <;>
    by_cases hf : fs = [] <;> simp [hf, List.findIdx_cons]

theorem massDep_read (prec : ℚ → ℚ) {md : MassDep} (h : Storable prec md) :
    mapMassDependenceType (match (massDepKeys prec false md).lookup "massDep" with
      | some (.group g) => some (.group g) | _ => none) = .ok (rounded prec md) := by
  cases md with
  | flat => rfl
  | relBW => rfl
  | binned lo hi =>
    simp only [massDepKeys, List.lookup_cons, beq_self_eq_true, mapMassDependenceType]
    show (do return (← createMassDependence "binned".toList _).getD .relBW) = _
    have : createMassDependence "binned".toList (.group [("name", .str "binned".toList),
        ("bounds", .list [.float (prec lo), .float (prec hi)])]) = .ok (some (.binned (prec lo) (prec hi))) := by
      unfold createMassDependence
      rw [if_neg (by decide), if_neg (by decide), if_neg (by decide), if_neg (by decide), if_pos rfl]
      have : createBinned (.group [("name", .str "binned".toList),
        ("bounds", .list [.float (prec lo), .float (prec hi)])]) = .ok (.binned (prec lo) (prec hi)) := by
        have e : findList (.group [("name", .str "binned".toList),
          ("bounds", .list [.float (prec lo), .float (prec hi)])]) "bounds" = some [.float (prec lo), .float (prec hi)] := by
          simp [findList, Setting.member, List.lookup_cons]
        unfold createBinned
        rw [e]
        simp only
        rw [if_neg (not_lt.mpr h)]
      rw [this]; rfl
    rw [this]; rfl
  | plain d => cases d <;> rfl
  | glass g => exact h.elim
  | palano m =>
    have : m = 2.4 := h
    subst this
    rfl

/-- the group of a decay vertex -/
structure IsVertex (prec : ℚ → ℚ) (isX : Bool) (key : Setting) (md : MassDep) (L S : ℕ) (iso fs : List Setting) : Prop where
  hfs : findList key "fsParticles" = if fs = [] then none else some fs
  hiso : findList key "isobars" = if iso = [] then none else some iso
  hLS : readLS key = (intOf L, intOf S)
  hmd : findGroup key "massDep" = match (massDepKeys prec isX md).lookup "massDep" with
      | some (.group g) => some (.group g) | _ => none
  hindex : iso ≠ [] → ¬ key.index "fsParticles" < key.index "isobars"

theorem isVertex (prec : ℚ → ℚ) (isX : Bool) (md : MassDep) (L S : ℕ) (iso fs : List Setting)
    (pre : List (String × Setting)) (hp : pre = [] ∨ ∃ s, pre = [("name", s)]) :
    IsVertex prec isX (.group (pre ++ vertexKeys prec isX md L S iso fs)) md L S iso fs := by
  have hl : ∀ n, n ≠ "name" → (Setting.group (pre ++ vertexKeys prec isX md L S iso fs)).member n
      = (vertexKeys prec isX md L S iso fs).lookup n := by
    intro n hn
    have b : (n == "name") = false := by simpa using hn
    rcases hp with rfl | ⟨s, rfl⟩
    · rfl
    · simp [Setting.member, List.lookup_cons, b]
  constructor
  · unfold findList
    rw [hl _ (by decide), lookup_vertexKeys]
    by_cases h : fs = [] <;> simp [h]
  · unfold findList
    rw [hl _ (by decide), lookup_vertexKeys]
    by_cases h : iso = [] <;> simp [h]
  · unfold readLS Setting.lookupInt
    rw [hl _ (by decide), lookup_vertexKeys, hl _ (by decide), lookup_vertexKeys]
    simp
  · unfold findGroup
    rw [hl _ (by decide), lookup_vertexKeys]
    simp
    rfl
  · exact fun h => index_vertexKeys _ _ _ _ _ _ _ _ hp h

theorem readVertex_eq (t : Table) (key : Setting) (parent : Part) : readVertex t key parent =
    (readFsList t key).bind fun fs => (match findList key "isobars" with
      | some l => readIsobars t none l
      | none => .ok (some ([], []))).bind (buildVertex key parent fs) := by
  rw [readVertex]
  congr 1
  funext fs
  split <;> rename_i h <;> rw [h] <;> rfl

/-- the daughters of a vertex are read as they were written -/
theorem readFs_written {t : Table} {l : List Part} (h : ∀ p ∈ l, FromTable t p) :
    readFs t (l.map fun p => .group [("name", .str p.props.fullName)]) = .ok (true, l) := by
  induction l with
  | nil => rfl
  | cons p l ih =>
    rw [List.map_cons, readFs, constructParticle_written (h p (by simp)) [] rfl rfl, ih fun q hq => h q (by simp [hq])]
    rfl

theorem fsKeys_eq (d : Decay) : fsKeys d = (match d with
    | .fs p => [p] | .iso _ _ _ _ _ _ => []).map fun p : Part => Setting.group [("name", .str p.props.fullName)] := by
  cases d <;> rfl

/-- what is known of a daughter -/
def ReadsBack (t : Table) (prec : ℚ → ℚ) : Decay → Prop
  | .fs p => FromTable t p
  | .iso p md L S d1 d2 => FromTable t p ∧ ∃ l, readVertex t (.group (("name", .str p.props.fullName) ::
      vertexKeys prec false md L S (isoKeys prec d1 ++ isoKeys prec d2) (fsKeys d1 ++ fsKeys d2))) p
        = .ok (some (described prec (.iso p md L S d1 d2), l)) ∧ l.Perm (finalState (.iso p md L S d1 d2))

theorem vertex_read' {t : Table} {prec : ℚ → ℚ} {isX : Bool} {key : Setting} {parent : Part} {md : MassDep} {L S : ℕ}
    {d1 d2 : Decay}
    (hk : IsVertex prec isX key md L S (isoKeys prec d1 ++ isoKeys prec d2) (fsKeys d1 ++ fsKeys d2))
    (hL : L < 2 ^ 32) (hS : S < 2 ^ 32) (h1 : ReadsBack t prec d1) (h2 : ReadsBack t prec d2) :
    ∃ l, readVertex t key parent = (readMassDep key parent).map (fun md' =>
      some (.iso parent md' L S (isobarFirst (described prec d1) (described prec d2)).1
      (isobarFirst (described prec d1) (described prec d2)).2, l)) ∧ l.Perm (finalState d1 ++ finalState d2) := by
  have hb : ∀ (fs : List Part) (ds : List Decay) (l : List Part) (a b : Decay), fs.length + ds.length = 2 →
      orderDaughters key fs ds = [a, b] →
      buildVertex key parent (true, fs) (some (ds, l)) = (readMassDep key parent).map
        (fun md' => some (.iso parent md' L S a b, fs ++ l)) := by
    intro fs ds l a b hlen ho
    unfold buildVertex
    simp only
    rw [if_neg (by simp [hlen]), ho, hk.hLS]
    simp only [uint_int hL, uint_int hS]
    cases readMassDep key parent <;> rfl
  have one : ∀ {p md L S a b} (prev : Option Part) (rest : List Setting), ReadsBack t prec (.iso p md L S a b) →
      ∃ l, readIsobars t prev (isoKeys prec (.iso p md L S a b) ++ rest) =
        (readIsobars t (some p) rest).bind (fun r => match r with
          | some (ds, fss) => .ok (some (described prec (.iso p md L S a b) :: ds, l ++ fss))
          | none => .ok none) ∧ l.Perm (finalState (.iso p md L S a b)) := by
    rintro p md L S a b prev rest ⟨hp, l, hr, hl⟩
    refine ⟨l, ?_, hl⟩
    rw [isoKeys, List.cons_append, List.nil_append, readIsobars, constructParticle_written hp _
      (by rw [lookup_vertexKeys]; simp) (by rw [lookup_vertexKeys]; simp)]
    show (readVertex t _ p).bind _ = _
    rw [hr]
    show (readIsobars t (some p) rest).bind _ = _
    congr 1
    funext r
    cases r <;> rfl
  rw [readVertex_eq]
  unfold readFsList
  rw [hk.hfs, hk.hiso]
  cases d1 with
  | fs p1 =>
    cases d2 with
    | fs p2 =>
      refine ⟨[p1, p2], ?_, List.Perm.refl _⟩
      have e : readFs t (fsKeys (.fs p1) ++ fsKeys (.fs p2)) = .ok (true, [p1, p2]) :=
        readFs_written (l := [p1, p2]) (by rintro p hp; simp at hp; rcases hp with rfl | rfl; exacts [h1, h2])
      show ((readFs t (fsKeys (.fs p1) ++ fsKeys (.fs p2))).bind fun fs => (Outcome.ok (some ([], []))).bind _) = _
      rw [e]
      exact hb [p1, p2] [] [] _ _ rfl rfl
    | iso q md2 L2 S2 a b =>
      obtain ⟨l, hl, hp⟩ := one none [] h2
      refine ⟨p1 :: l, ?_, List.Perm.cons _ hp⟩
      have e : readFs t (fsKeys (.fs p1) ++ fsKeys (.iso q md2 L2 S2 a b)) = .ok (true, [p1]) :=
        readFs_written (l := [p1]) (by rintro p hp; simp at hp; subst hp; exact h1)
      show ((readFs t (fsKeys (.fs p1) ++ fsKeys (.iso q md2 L2 S2 a b))).bind fun fs =>
        (readIsobars t none (isoKeys prec (.iso q md2 L2 S2 a b))).bind _) = _
      rw [e]
      show (readIsobars t none (isoKeys prec (.iso q md2 L2 S2 a b))).bind _ = _
      rw [List.append_nil] at hl
      rw [hl, readIsobars]
      refine (hb [p1] [described prec (.iso q md2 L2 S2 a b)] (l ++ []) _ _ rfl ?_).trans (by rw [List.append_nil]; rfl)
      unfold orderDaughters
      rw [if_pos ⟨rfl, rfl⟩, if_neg (hk.hindex (by simp [isoKeys]))]
      rfl
  | iso q md2 L2 S2 a b =>
    cases d2 with
    | fs p1 =>
      obtain ⟨l, hl, hp⟩ := one none [] h1
      refine ⟨p1 :: l, ?_, (List.Perm.cons _ hp).trans (List.perm_append_comm (l₁ := [p1]))⟩
      have e : readFs t (fsKeys (.iso q md2 L2 S2 a b) ++ fsKeys (.fs p1)) = .ok (true, [p1]) :=
        readFs_written (l := [p1]) (by rintro p hp; simp at hp; subst hp; exact h2)
      show ((readFs t (fsKeys (.iso q md2 L2 S2 a b) ++ fsKeys (.fs p1))).bind fun fs =>
        (readIsobars t none (isoKeys prec (.iso q md2 L2 S2 a b) ++ [])).bind _) = _
      rw [e]
      show (readIsobars t none (isoKeys prec (.iso q md2 L2 S2 a b) ++ [])).bind _ = _
      rw [hl, readIsobars]
      refine (hb [p1] [described prec (.iso q md2 L2 S2 a b)] (l ++ []) _ _ rfl ?_).trans (by rw [List.append_nil]; rfl)
      unfold orderDaughters
      rw [if_pos ⟨rfl, rfl⟩, if_neg (hk.hindex (by simp [isoKeys]))]
      rfl
    | iso q' md2' L2' S2' a' b' =>
      obtain ⟨l', hl', hp'⟩ := one (some q) [] h2
      rw [List.append_nil] at hl'
      obtain ⟨l, hl, hp⟩ := one none (isoKeys prec (.iso q' md2' L2' S2' a' b')) h1
      refine ⟨l ++ l', ?_, List.Perm.append hp hp'⟩
      show ((Outcome.ok (true, [])).bind fun fs =>
        (readIsobars t none (isoKeys prec (.iso q md2 L2 S2 a b) ++ isoKeys prec (.iso q' md2' L2' S2' a' b'))).bind _) = _
      show (readIsobars t none (isoKeys prec (.iso q md2 L2 S2 a b) ++ isoKeys prec (.iso q' md2' L2' S2' a' b'))).bind _ = _
      rw [hl, hl', readIsobars]
      refine (hb [] [described prec (.iso q md2 L2 S2 a b), described prec (.iso q' md2' L2' S2' a' b')] (l ++ (l' ++ []))
        _ _ rfl ?_).trans (by rw [List.append_nil]; rfl)
      rfl

theorem vertex_read {t : Table} {prec : ℚ → ℚ} {isX : Bool} {key : Setting} {parent : Part} {md md' : MassDep} {L S : ℕ}
    {d1 d2 : Decay}
    (hk : IsVertex prec isX key md L S (isoKeys prec d1 ++ isoKeys prec d2) (fsKeys d1 ++ fsKeys d2))
    (hm : readMassDep key parent = .ok md') (hL : L < 2 ^ 32) (hS : S < 2 ^ 32) (h1 : ReadsBack t prec d1)
    (h2 : ReadsBack t prec d2) :
    ∃ l, readVertex t key parent = .ok (some (.iso parent md' L S (isobarFirst (described prec d1) (described prec d2)).1
      (isobarFirst (described prec d1) (described prec d2)).2, l)) ∧ l.Perm (finalState d1 ++ finalState d2) := by
  obtain ⟨l, e, hp⟩ := vertex_read' hk (parent := parent) hL hS h1 h2
  rw [hm] at e
  exact ⟨l, e, hp⟩

theorem decay_read {t : Table} {prec : ℚ → ℚ} : ∀ {d : Decay}, Writable t prec d → ReadsBack t prec d
  | .fs _, h => h
  | .iso p md L S d1 d2, ⟨hp, hX, hmd, hL, hS, _, _, h1, h2⟩ => by
    refine ⟨hp, ?_⟩
    have hk := isVertex prec false md L S (isoKeys prec d1 ++ isoKeys prec d2) (fsKeys d1 ++ fsKeys d2)
      [("name", .str p.props.fullName)] (.inr ⟨_, rfl⟩)
    refine vertex_read hk (md' := rounded prec md) ?_ hL hS (decay_read h1) (decay_read h2)
    unfold readMassDep
    rw [if_pos hX]
    exact (congrArg mapMassDependenceType hk.hmd).trans (massDep_read prec hmd)

theorem part_described (prec : ℚ → ℚ) (d : Decay) : (described prec d).part = d.part := by cases d <;> rfl

theorem isobarFirst_charge (a b : Decay) : (isobarFirst a b).1.part.props.charge + (isobarFirst a b).2.part.props.charge
    = a.part.props.charge + b.part.props.charge := by
  cases a <;> cases b <;> simp [isobarFirst, add_comm]

theorem isobarFirst_cases (a b : Decay) : isobarFirst a b = (a, b) ∨ isobarFirst a b = (b, a) := by
  cases a <;> cases b <;> simp [isobarFirst]

/-- charges that are conserved are not changed -/
theorem fixCharges_described {t : Table} {prec : ℚ → ℚ} : ∀ {d : Decay}, Writable t prec d →
    fixCharges t (described prec d) = .ok (described prec d)
  | .fs _, _ => rfl
  | .iso p md L S d1 d2, ⟨_, _, _, _, _, hc, hq, h1, h2⟩ => by
    have e1 := fixCharges_described h1
    have e2 := fixCharges_described h2
    have hch := isobarFirst_charge (described prec d1) (described prec d2)
    rw [part_described, part_described, ← hc] at hch
    rw [described, fixCharges]
    have f : fixCharges t (isobarFirst (described prec d1) (described prec d2)).1
        = .ok (isobarFirst (described prec d1) (described prec d2)).1 ∧
        fixCharges t (isobarFirst (described prec d1) (described prec d2)).2
        = .ok (isobarFirst (described prec d1) (described prec d2)).2 := by
      rcases isobarFirst_cases (described prec d1) (described prec d2) with h | h <;> rw [h]
      exacts [⟨e1, e2⟩, ⟨e2, e1⟩]
    rw [f.1, f.2]
    simp only [Outcome.ok_bind, hch]
    unfold Props.setCharge
    rw [if_pos hq]
    simp

theorem signum_of_mem {z : ℤ} (h : z ∈ [-1, 0, 1]) : signum z = z := by
  simp at h
  rcases h with rfl | rfl | rfl <;> rfl

theorem lookup_optKey (n m : String) (z : ℤ) : (optKey n z).lookup m = if m = n ∧ z ≠ 0 then some (.int z) else none := by
  unfold optKey
  by_cases h : z = 0
  · simp [h]
  · by_cases hm : m = n
    · subst hm; simp [h]
    · have b : (m == n) = false := by simpa using hm
      simp [h, List.lookup_cons, b, hm]

theorem readX_written {X : Part} {q : ℤ} (h : XParticle X q) :
    readX (writeX X) = .ok (some { X with props := { X.props with charge := 0 } }) := by
  have hl : ∀ n : String, ∀ z : ℤ, (n, z) ∈ [("isospin", X.props.isospin), ("J", X.props.J), ("P", X.props.P), ("M", X.spinProj)] →
      (writeX X).lookupInt n = some z := by
    intro n z hn
    simp at hn
    rcases hn with ⟨rfl, rfl⟩ | ⟨rfl, rfl⟩ | ⟨rfl, rfl⟩ | ⟨rfl, rfl⟩ <;>
      simp [writeX, Setting.lookupInt, Setting.member, List.lookup_append, lookup_optKey, List.lookup_cons]
  have ho : ∀ n : String, ∀ z : ℤ, (n, z) ∈ [("G", X.props.G), ("C", X.props.C), ("refl", X.refl), ("baryonNmb", X.props.baryonNmb),
      ("strangeness", X.props.strangeness), ("charm", X.props.charm), ("beauty", X.props.beauty)] →
      ((writeX X).lookupInt n).getD 0 = z := by
    intro n z hn
    by_cases hz : z = 0
    · subst hz
      simp at hn
      rcases hn with ⟨rfl, e⟩ | ⟨rfl, e⟩ | ⟨rfl, e⟩ | ⟨rfl, e⟩ | ⟨rfl, e⟩ | ⟨rfl, e⟩ | ⟨rfl, e⟩ <;>
        simp [writeX, Setting.lookupInt, Setting.member, List.lookup_append, lookup_optKey, List.lookup_cons, ← e]
    · simp at hn
      rcases hn with ⟨rfl, rfl⟩ | ⟨rfl, rfl⟩ | ⟨rfl, rfl⟩ | ⟨rfl, rfl⟩ | ⟨rfl, rfl⟩ | ⟨rfl, rfl⟩ | ⟨rfl, rfl⟩ <;>
        simp [writeX, Setting.lookupInt, Setting.member, List.lookup_append, lookup_optKey, List.lookup_cons, hz]
  unfold readX
  rw [hl "isospin" X.props.isospin (by simp), hl "J" X.props.J (by simp), hl "P" X.props.P (by simp), hl "M" X.spinProj (by simp)]
  have hn : Props.default.setName "X".toList = .ok { Props.default with name := "X".toList } := by
    rfl
  simp only [hn, Outcome.ok_bind]
  rw [ho "G" X.props.G (by simp), ho "C" X.props.C (by simp), ho "refl" X.refl (by simp), ho "baryonNmb" X.props.baryonNmb (by simp),
    ho "strangeness" X.props.strangeness (by simp), ho "charm" X.props.charm (by simp), ho "beauty" X.props.beauty (by simp)]
  obtain ⟨h1, h2, _, _, ⟨h3, h4, h5⟩, h6, h7, ⟨h8, h9, h10⟩, _, h11, h12⟩ := h
  rw [signum_of_mem h8, signum_of_mem h9, signum_of_mem h10, Int.natAbs_of_nonneg h6, Int.natAbs_of_nonneg h7]
  cases X with | mk props spinProj index refl =>
  cases props
  simp_all [Props.default]

theorem fromTable_unique {t : Table} {p q : Part} (hp : FromTable t p) (hq : FromTable t q)
    (h : p.props.fullName = q.props.fullName) : p = q := by
  have e : p.props = q.props := by
    have := hp.inTable
    rw [h, hq.inTable] at this
    exact (Option.some.inj this).symm
  obtain ⟨_, h1, h2, h3⟩ := hp
  obtain ⟨_, h4, h5, h6⟩ := hq
  cases p; cases q
  simp_all

theorem production_read {t : Table} {prec : ℚ → ℚ} {prod : Production} (h : WritableProduction t prod) :
    ∃ k, writeProduction prec prod = .ok (.group k) ∧
      readProduction t (.group k) = .ok (some (describedProduction prec prod)) := by
  cases prod with
  | other => exact h.elim
  | diffractive b tg r =>
    obtain ⟨hb, ht, hrt⟩ := h
    refine ⟨_, rfl, ?_⟩
    have cb := constructParticle_written hb [] rfl rfl
    have ct := constructParticle_written ht [] rfl rfl
    have cr := constructParticle_written hrt [] rfl rfl
    by_cases hn : r.props.fullName = tg.props.fullName
    · have e := fromTable_unique hrt ht hn
      subst e
      simp [readProduction, Setting.lookupStr, Setting.member, List.lookup_cons, findGroup, particleKey, ct, cb]
      rfl
    · simp [readProduction, Setting.lookupStr, Setting.member, List.lookup_cons, findGroup, particleKey, ct, cb, cr, hn,
        Outcome.map]
      rfl
  | lepto b tg out pol =>
    obtain ⟨hb, ht, rfl⟩ := h
    refine ⟨_, rfl, ?_⟩
    have cb := constructParticle_written hb [("longPol", .float (prec pol))] rfl rfl
    have ct := constructParticle_written ht [] rfl rfl
    simp [readProduction, Setting.lookupStr, Setting.member, List.lookup_cons, findGroup, particleKey, ct, cb,
      Setting.lookupFloat]
    rfl

/-- **C57**: an amplitude that is written to a key file and read again is the amplitude described by the file: the same
quantum numbers, particles, couplings and switches; isobars come before final-state particles, numbers are rounded, and X has
no mass dependence.  The final state consists of the same particles. -/
theorem roundTrip {t : Table} {prec : ℚ → ℚ} {a : Amplitude} (h : WritableAmplitude t prec a) :
    ∃ key l, writeAmplitude prec a = .ok key ∧ readAmplitude t key = .ok (some (describedAmplitude prec a, l)) ∧
      l.Perm (finalState a.topo.d1 ++ finalState a.topo.d2) := by
  obtain ⟨k, hw, hr⟩ := production_read (prec := prec) h.prod
  obtain ⟨xd, hxd⟩ : ∃ xd, xd = vertexKeys prec true a.topo.md a.topo.L a.topo.S
        (isoKeys prec a.topo.d1 ++ isoKeys prec a.topo.d2) (fsKeys a.topo.d1 ++ fsKeys a.topo.d2) := ⟨_, rfl⟩
  have hk : IsVertex prec true (.group xd) a.topo.md a.topo.L a.topo.S
        (isoKeys prec a.topo.d1 ++ isoKeys prec a.topo.d2) (fsKeys a.topo.d1 ++ fsKeys a.topo.d2) :=
    hxd ▸ isVertex prec true _ _ _ _ _ [] (.inl rfl)
  have hx := readX_written h.X
  obtain ⟨l, hv, hl⟩ := vertex_read (t := t) (parent := { a.topo.X with props := { a.topo.X.props with charge := 0 } }) hk
    (md' := .flat) (by unfold readMassDep; rw [if_neg (by simp [h.X.name])]; rfl) h.L h.S (decay_read h.d1) (decay_read h.d2)
  refine ⟨.group [("productionVertex", .group k),
      ("decayVertex", .group [("XQuantumNumbers", writeX a.topo.X), ("XDecay", .group xd)]),
      ("amplitude", writeSwitches a)], l, by unfold writeAmplitude; rw [hw, ← hxd]; rfl, ?_, hl⟩
  have hsw : ∃ sw, writeSwitches a = .group sw := ⟨_, rfl⟩
  obtain ⟨sw, hsw⟩ := hsw
  have hxq : ∃ xq, writeX a.topo.X = .group xq := ⟨_, rfl⟩
  obtain ⟨xq, hxq⟩ := hxq
  unfold readAmplitude
  have ht : readTopology t (.group [("productionVertex", .group k),
      ("decayVertex", .group [("XQuantumNumbers", writeX a.topo.X), ("XDecay", .group xd)]),
      ("amplitude", writeSwitches a)]) = .ok (some ((describedAmplitude prec a).topo, l)) := by
    have g1 : findGroup (.group [("productionVertex", .group k),
      ("decayVertex", .group [("XQuantumNumbers", writeX a.topo.X), ("XDecay", .group xd)]),
      ("amplitude", writeSwitches a)]) "decayVertex"
        = some (.group [("XQuantumNumbers", writeX a.topo.X), ("XDecay", .group xd)]) := by
      simp [findGroup, Setting.member, List.lookup_cons]
    have g2 : findGroup (.group [("XQuantumNumbers", writeX a.topo.X), ("XDecay", .group xd)]) "XQuantumNumbers"
        = some (writeX a.topo.X) := by
      rw [hxq]; simp [findGroup, Setting.member, List.lookup_cons]
    have g3 : findGroup (.group [("XQuantumNumbers", writeX a.topo.X), ("XDecay", .group xd)]) "XDecay"
        = some (.group xd) := by
      simp [findGroup, Setting.member, List.lookup_cons]
    have g4 : findGroup (.group [("productionVertex", .group k),
      ("decayVertex", .group [("XQuantumNumbers", writeX a.topo.X), ("XDecay", .group xd)]),
      ("amplitude", writeSwitches a)]) "productionVertex" = some (.group k) := by
      simp [findGroup, Setting.member, List.lookup_cons]
    unfold readTopology
    simp only [g1, g2, g3, g4, hx, hr, hv, Outcome.ok_bind]
    have hf : fixCharges t (isobarFirst (described prec a.topo.d1) (described prec a.topo.d2)).1
        = .ok (isobarFirst (described prec a.topo.d1) (described prec a.topo.d2)).1 ∧
        fixCharges t (isobarFirst (described prec a.topo.d1) (described prec a.topo.d2)).2
        = .ok (isobarFirst (described prec a.topo.d1) (described prec a.topo.d2)).2 := by
      rcases isobarFirst_cases (described prec a.topo.d1) (described prec a.topo.d2) with e | e <;> rw [e]
      exacts [⟨fixCharges_described h.d1, fixCharges_described h.d2⟩, ⟨fixCharges_described h.d2, fixCharges_described h.d1⟩]
    have hch := isobarFirst_charge (described prec a.topo.d1) (described prec a.topo.d2)
    rw [part_described, part_described, ← h.X.charge] at hch
    unfold calcIsobarCharges
    simp only [hf.1, hf.2, Outcome.ok_bind, hch]
    unfold Props.setCharge
    rw [if_pos (by rw [h.X.charge]; exact h.X.small)]
    simp only [Outcome.ok_bind]
    have hc : ¬ (a.topo.X.props.charge.natAbs > 0 ∧ a.topo.X.props.C ≠ 0) := by
      rintro ⟨h1, h2⟩
      exact h2 (h.X.charged (by rw [← h.X.charge]; omega))
    rw [if_neg hc]
    rfl
  rw [ht]
  have g5 : findGroup (.group [("productionVertex", .group k),
      ("decayVertex", .group [("XQuantumNumbers", writeX a.topo.X), ("XDecay", .group xd)]),
      ("amplitude", writeSwitches a)]) "amplitude" = some (writeSwitches a) := by
    rw [hsw]; simp [findGroup, Setting.member, List.lookup_cons]
  simp only [g5, Outcome.ok_bind]
  obtain ⟨topo, c, b, i, r⟩ := a
  unfold writeSwitches
  cases c <;> cases b <;> cases i <;> cases r <;>
    simp [Setting.lookupStr, Setting.lookupBool, Setting.member, List.lookup_cons, describedAmplitude]

/-- **C57**: the decay is the same exactly if isobars come first everywhere and its numbers are not rounded -/
theorem described_eq_iff (prec : ℚ → ℚ) : ∀ d : Decay, described prec d = d ↔ Canonical prec d
  | .fs _ => by simp [described, Canonical]
  | .iso p md L S d1 d2 => by
    have i1 := described_eq_iff prec d1
    have i2 := described_eq_iff prec d2
    simp only [described, Canonical, Decay.iso.injEq, true_and, ← i1, ← i2]
    constructor
    · rintro ⟨hm, h1, h2⟩
      refine ⟨hm, ?_⟩
      cases d1 <;> cases d2 <;> simp_all [described, isobarFirst]
    · rintro ⟨hm, h0, h1, h2⟩
      rw [h1, h2, h0]
      exact ⟨hm, rfl, rfl⟩

/-- **C57**: writing a second time changes nothing any more (if rounding a second time changes nothing) -/
theorem described_stable (prec : ℚ → ℚ) (hp : ∀ x, prec (prec x) = prec x) (a : Amplitude) :
    describedAmplitude prec (describedAmplitude prec a) = describedAmplitude prec a := by
  have hd : ∀ d : Decay, Canonical prec (described prec d) := by
    intro d
    induction d with
    | fs _ => trivial
    | iso p md L S d1 d2 i1 i2 =>
      refine ⟨by cases md <;> simp [rounded, hp], ?_, ?_, ?_⟩
      · cases described prec d1 <;> cases described prec d2 <;> rfl
      all_goals
        rcases isobarFirst_cases (described prec d1) (described prec d2) with e | e <;> rw [e] <;> assumption
  have he : ∀ d : Decay, described prec (described prec d) = described prec d := fun d => (described_eq_iff prec _).mpr (hd d)
  have hpr : describedProduction prec (describedProduction prec a.topo.prod) = describedProduction prec a.topo.prod := by
    cases a.topo.prod <;> simp [describedProduction, hp]
  unfold describedAmplitude
  simp only [hpr]
  rcases isobarFirst_cases (described prec a.topo.d1) (described prec a.topo.d2) with e | e <;> rw [e] <;> simp only [he]
  · rw [e]
  · have : isobarFirst (described prec a.topo.d2) (described prec a.topo.d1)
        = (described prec a.topo.d2, described prec a.topo.d1) := by
      revert e
      cases described prec a.topo.d1 <;> cases described prec a.topo.d2 <;> simp [isobarFirst]
      
    rw [this]

/-- **C57**: nothing is lost if isobars come first, the numbers survive and X has no mass dependence -/
theorem roundTrip_exact {t : Table} {prec : ℚ → ℚ} {a : Amplitude} (h : WritableAmplitude t prec a)
    (hX : a.topo.md = .flat) (h1 : Canonical prec a.topo.d1) (h2 : Canonical prec a.topo.d2)
    (h0 : isobarFirst a.topo.d1 a.topo.d2 = (a.topo.d1, a.topo.d2))
    (hp : describedProduction prec a.topo.prod = a.topo.prod) :
    ∃ key l, writeAmplitude prec a = .ok key ∧ readAmplitude t key = .ok (some (a, l)) ∧
      l.Perm (finalState a.topo.d1 ++ finalState a.topo.d2) := by
  obtain ⟨key, l, hw, hr, hl⟩ := roundTrip h
  refine ⟨key, l, hw, ?_, hl⟩
  rw [hr]
  have e1 := (described_eq_iff prec _).mpr h1
  have e2 := (described_eq_iff prec _).mpr h2
  unfold describedAmplitude
  rw [e1, e2, h0, hp, ← hX]

/-- **C57**: the key file of an amplitude with a generalised LASS isobar cannot be read: the program aborts -/
theorem glass_aborts {t : Table} {prec : ℚ → ℚ} {p : Part} {g : Glass} {L S : ℕ} {d1 d2 : Decay}
    (hX : p.props.name ≠ "X".toList) (hL : L < 2 ^ 32) (hS : S < 2 ^ 32) (h1 : Writable t prec d1) (h2 : Writable t prec d2) :
    isoKeys prec (.iso p (.glass g) L S d1 d2) = [.group (("name", .str p.props.fullName) ::
      vertexKeys prec false (.glass g) L S (isoKeys prec d1 ++ isoKeys prec d2) (fsKeys d1 ++ fsKeys d2))] ∧
    readVertex t (.group (("name", .str p.props.fullName) ::
      vertexKeys prec false (.glass g) L S (isoKeys prec d1 ++ isoKeys prec d2) (fsKeys d1 ++ fsKeys d2))) p = .terminate := by
  refine ⟨rfl, ?_⟩
  have hk := isVertex prec false (.glass g) L S (isoKeys prec d1 ++ isoKeys prec d2) (fsKeys d1 ++ fsKeys d2)
    [("name", .str p.props.fullName)] (.inr ⟨_, rfl⟩)
  obtain ⟨l, e, _⟩ := vertex_read' hk (parent := p) hL hS (decay_read h1) (decay_read h2)
  refine e.trans ?_
  have hm : readMassDep (.group ([("name", .str p.props.fullName)] ++
      vertexKeys prec false (.glass g) L S (isoKeys prec d1 ++ isoKeys prec d2) (fsKeys d1 ++ fsKeys d2))) p = .terminate := by
    unfold readMassDep
    rw [if_pos hX]
    exact (congrArg mapMassDependenceType hk.hmd).trans rfl
  rw [hm]
  rfl

/-- **C57**: the upper mass limit of a Palano-Pennington isobar is not stored -/
theorem palano_lost (prec : ℚ → ℚ) (m : ℚ) : mapMassDependenceType (findGroup
    (.group (massDepKeys prec false (.palano m))) "massDep") = .ok (.palano 2.4) := rfl

/-- **C57**: spin projection and index of a final-state particle are not stored -/
theorem settings_lost {t : Table} {p : Part} (h : entry t p.props.fullName = some p.props) :
    ∃ k, fsKeys (.fs p) = [k] ∧ constructParticle t k = .ok (some { props := p.props }) := by
  refine ⟨_, rfl, ?_⟩
  exact constructParticle_written (p := { props := p.props }) ⟨h, rfl, rfl, rfl⟩ [] rfl rfl

/-- **C57**: the recoil particle of a lepto-production vertex is ignored (only that one is given) -/
theorem lepto_recoil_lost {t : Table} {b tg r : Part} (hb : FromTable t b) (ht : FromTable t tg) (hr : FromTable t r) :
    readProduction t (.group [("type", .str "leptoProductionVertex".toList), particleKey "beam" b [],
      particleKey "recoil" r [], particleKey "target" tg []]) = .ok (some (.lepto b tg [b] 0)) := by
  have cb := constructParticle_written hb [] rfl rfl
  have ct := constructParticle_written ht [] rfl rfl
  have cr := constructParticle_written hr [] rfl rfl
  simp [readProduction, Setting.lookupStr, Setting.member, List.lookup_cons, findGroup, particleKey, ct, cb, cr, Outcome.map,
    Setting.lookupFloat]

/-- **C57**: amplitudes with other production vertices are written without complaint, but cannot be read -/
theorem other_production {t : Table} {prec : ℚ → ℚ} {a : Amplitude} (h : a.topo.prod = .other) {q : ℤ}
    (hX : XParticle a.topo.X q) :
    ∃ key, writeAmplitude prec a = .ok key ∧ readAmplitude t key = .ok none := by
  refine ⟨_, by unfold writeAmplitude; rw [h]; rfl, ?_⟩
  have hxq : ∃ xq, writeX a.topo.X = .group xq := ⟨_, rfl⟩
  obtain ⟨xq, hxq⟩ := hxq
  have hx := readX_written hX
  rw [hxq] at hx
  unfold readAmplitude readTopology
  simp [findGroup, Setting.member, List.lookup_cons, hxq, hx, readProduction, Setting.lookupStr]

/-- **C57**: `S` is not read from a vertex without `L` -/
theorem S_ignored (S : ℤ) : readLS (.group [("S", .int S)]) = (0, 0) := by
  simp [readLS, Setting.lookupInt, Setting.member, List.lookup_cons]

/-- **C57**: a vertex whose first isobar has no name reads outside of an empty vector -/
theorem unnamed_isobar (t : Table) (parent : Part) : readVertex t (.group [("isobars", .list [.group []])]) parent = .ub := by
  rw [readVertex_eq]
  have e1 : findList (.group [("isobars", .list [.group []])]) "isobars" = some [.group []] := by
    simp [findList, Setting.member, List.lookup_cons]
  have e2 : findList (.group [("isobars", .list [.group []])]) "fsParticles" = none := by
    simp [findList, Setting.member, List.lookup_cons]
  unfold readFsList
  rw [e1, e2]
  show (readIsobars t none [.group []]).bind _ = _
  rw [readIsobars]
  rfl

namespace Ex

def piPlus : Part := { props := { Props.default with name := "pi".toList, antiName := "pi".toList, charge := 1, isospin := 2, G := -1, P := -1 } }
def piMinus : Part := { props := { Props.default with name := "pi".toList, antiName := "pi".toList, charge := -1, isospin := 2, G := -1, P := -1 } }
def proton : Part := { props := { Props.default with name := "p".toList, antiName := "pbar".toList, charge := 1, isospin := 1, J := 1, P := 1, baryonNmb := 1 } }
def rho : Part := { props := { Props.default with name := "rho(770)".toList, antiName := "rho(770)".toList, isospin := 2, G := 1, J := 2, P := -1, C := -1 } }
def table : Table := [("p+".toList, proton.props), ("pi+".toList, piPlus.props), ("pi-".toList, piMinus.props), ("rho(770)0".toList, rho.props)]
def X : Part := { props := { Props.default with name := "X".toList, charge := -1, isospin := 2, G := -1, J := 2, P := 1 }, spinProj := 0, refl := 1 }

/-- `X → rho(770)0 pi-`, `rho(770)0 → pi+ pi-` -/
def amp : Amplitude where
  topo := ⟨.diffractive piMinus proton proton, X, .flat, 0, 2, .iso rho (.plain .rhoBreitWigner) 2 0 (.fs piPlus) (.fs piMinus), .fs piMinus⟩
  canonical := true
  bose := true
  isospin := false
  reflBasis := true

theorem writable (prec : ℚ → ℚ) : WritableAmplitude table prec amp := by
  have h1 : FromTable table piPlus := ⟨by rfl, rfl, rfl, rfl⟩
  have h2 : FromTable table piMinus := ⟨by rfl, rfl, rfl, rfl⟩
  have h3 : FromTable table rho := ⟨by rfl, rfl, rfl, rfl⟩
  have h4 : FromTable table proton := ⟨by rfl, rfl, rfl, rfl⟩
  exact ⟨⟨h2, h4, h4⟩, ⟨rfl, rfl, rfl, by decide, ⟨rfl, rfl, rfl⟩, by decide, by decide, by decide, fun _ => rfl, rfl, rfl⟩,
    by decide, by decide, ⟨h3, by decide, trivial, by decide, by decide, rfl, by decide, h1, h2⟩, h2⟩

end Ex

/-- the hypotheses of `roundTrip_exact` hold for `X → rho pi` -/
example (prec : ℚ → ℚ) : ∃ key l, writeAmplitude prec Ex.amp = .ok key ∧ readAmplitude Ex.table key = .ok (some (Ex.amp, l)) ∧
    l.Perm [Ex.piPlus, Ex.piMinus, Ex.piMinus] :=
  roundTrip_exact (Ex.writable prec) rfl ⟨rfl, rfl, trivial, trivial⟩ trivial rfl rfl

/-- with the daughters of X in the other order the amplitude comes back with exchanged daughters -/
theorem Ex.swapped (prec : ℚ → ℚ) : ∃ a : Amplitude, WritableAmplitude Ex.table prec a ∧
    a.topo.d1 = .fs Ex.piMinus ∧
    ∃ key b l, writeAmplitude prec a = .ok key ∧ readAmplitude Ex.table key = .ok (some (b, l)) ∧ b.topo.d2 = .fs Ex.piMinus ∧
      b.topo.d1 ≠ .fs Ex.piMinus := by
  have h := Ex.writable prec
  refine ⟨{ Ex.amp with topo := { Ex.amp.topo with d1 := Ex.amp.topo.d2, d2 := Ex.amp.topo.d1 } },
    ⟨h.prod, h.X, h.L, h.S, h.d2, h.d1⟩, rfl, ?_⟩
  obtain ⟨key, l, hw, hr, _⟩ := roundTrip (a := { Ex.amp with topo := { Ex.amp.topo with d1 := Ex.amp.topo.d2, d2 := Ex.amp.topo.d1 } })
    ⟨h.prod, h.X, h.L, h.S, h.d2, h.d1⟩
  exact ⟨key, _, l, hw, hr, rfl, by simp [describedAmplitude, isobarFirst, described, Ex.amp]⟩

end Rpwa.KeyFile
