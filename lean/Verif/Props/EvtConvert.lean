import Verif.Spec.EvtConvert
import Verif.Props.EvtFile
import Verif.Props.Deweight
import Verif.Props.PickersInit
/-!
# Conversion of event files to text and back (C94): reading -/
namespace Rpwa.EvtConvert

open Rpwa.Storage

/-! ### lines -/

theorem nameOfId_iff (id : ℤ) (n : String) : (do let x ← Evt.nameOfId id; Outcome.ok (String.ofList x)) = .ok n ↔ NameOfId id n := by
  rw [Evt.name_of_id]
  simp only [Outcome.ok_bind]
  cases hf : Evt.Spec.known.find? fun k => k.1 = id with
  | none =>
    have hno : ∀ k ∈ Evt.Spec.known, k.1 ≠ id := fun k hk => by simpa using List.find?_eq_none.1 hf k hk
    constructor
    · intro h
      have := Outcome.ok.inj h
      exact Or.inr ⟨this.symm.trans (by simp), hno⟩
    · rintro (⟨q, hq⟩ | ⟨rfl, _⟩)
      · exact absurd rfl (hno _ hq)
      · simp
  | some k =>
    have hk := List.mem_of_find?_eq_some hf
    have hid : k.1 = id := by simpa using List.find?_some hf
    constructor
    · intro h
      have := Outcome.ok.inj h
      refine Or.inl ⟨k.2.2, ?_⟩
      rw [← this, ← hid]
      simpa using hk
    · rintro (⟨q, hq⟩ | ⟨_, hno⟩)
      · have huniq : ∀ k ∈ Evt.Spec.known, ∀ j ∈ Evt.Spec.known, k.1 = j.1 → k.2.1 = j.2.1 := by decide +kernel
        have := huniq k hk _ hq hid
        simp [this]
      · exact absurd hid (hno k hk)

theorem nameOfId_unique {id : ℤ} {n n' : String} (h : NameOfId id n) (h' : NameOfId id n') : n = n' := by
  have h1 := (nameOfId_iff id n).2 h
  have h2 := (nameOfId_iff id n').2 h'
  rw [h1] at h2
  exact Outcome.ok.inj h2

theorem nameOfId_ne {id : ℤ} {n : String} (h : NameOfId id n) : n ≠ "" := by
  rcases h with ⟨q, hq⟩ | ⟨rfl, _⟩
  · have : ∀ k ∈ Evt.Spec.known, k.2.1 ≠ "" := by decide +kernel
    exact this _ hq
  · simp

theorem lineName_iff (T : Text) (l : Line) (n : String) : lineName T l = .ok n ↔ HasName T l n := by
  unfold lineName HasName
  cases l with
  | nil =>
    constructor
    · intro h; cases h
    · rintro ⟨w, rest, id, h, _⟩; cases h
  | cons w rest =>
    dsimp only
    cases hp : T.pInt w with
    | none =>
      constructor
      · intro h; cases h
      · rintro ⟨w', rest', id, h, hp', _⟩
        obtain ⟨rfl, rfl⟩ := List.cons.inj h
        rw [hp] at hp'; cases hp'
    | some id =>
      dsimp only
      rw [nameOfId_iff]
      constructor
      · intro h
        exact ⟨w, rest, id, rfl, hp, h⟩
      · rintro ⟨w', rest', id', h, hp', hn⟩
        obtain ⟨rfl, rfl⟩ := List.cons.inj h
        rw [hp] at hp'
        rw [Option.some.inj hp']
        exact hn

theorem hasName_unique {T : Text} {l : Line} {n n' : String} (h : HasName T l n) (h' : HasName T l n') : n = n' := by
  have h1 := (lineName_iff T l n).2 h
  have h2 := (lineName_iff T l n').2 h'
  rw [h1] at h2
  exact Outcome.ok.inj h2

theorem hasName_ne {T : Text} {l : Line} {n : String} (h : HasName T l n) : n ≠ "" := by
  obtain ⟨_, _, _, _, _, hn⟩ := h
  exact nameOfId_ne hn

theorem lineMomentum_iff (T : Text) (l : Line) (p : Vec3) : lineMomentum T l = .ok p ↔ HasMomentum T l p := by
  constructor
  · intro h
    unfold lineMomentum at h
    match l, h with
    | a :: b :: x :: y :: z :: rest, h =>
      dsimp only at h
      cases hx : T.pDbl x with
      | none => rw [hx] at h; cases h
      | some vx =>
        cases hy : T.pDbl y with
        | none => rw [hx, hy] at h; cases h
        | some vy =>
          cases hz : T.pDbl z with
          | none => rw [hx, hy, hz] at h; cases h
          | some vz =>
            rw [hx, hy, hz] at h
            have := Outcome.ok.inj h
            subst this
            exact ⟨a, b, x, y, z, rest, rfl, hx, hy, hz⟩
  · rintro ⟨a, b, x, y, z, rest, rfl, hx, hy, hz⟩
    unfold lineMomentum
    dsimp only
    rw [hx, hy, hz]

theorem hasMomentum_unique {T : Text} {l : Line} {p p' : Vec3} (h : HasMomentum T l p) (h' : HasMomentum T l p') : p = p' := by
  have h1 := (lineMomentum_iff T l p).2 h
  have h2 := (lineMomentum_iff T l p').2 h'
  rw [h1] at h2
  exact Outcome.ok.inj h2

theorem names_iff (T : Text) (ds : List Line) (ns : List String) : ds.mapM (lineName T) = .ok ns ↔ List.Forall₂ (HasName T) ds ns := by
  rw [Pick.mapM_ok_iff]
  constructor
  · exact fun h => h.imp fun a b hab => (lineName_iff T a b).1 hab
  · exact fun h => h.imp fun a b hab => (lineName_iff T a b).2 hab

theorem momenta_iff (T : Text) (ds : List Line) (ps : List Vec3) : ds.mapM (lineMomentum T) = .ok ps ↔ List.Forall₂ (HasMomentum T) ds ps := by
  rw [Pick.mapM_ok_iff]
  constructor
  · exact fun h => h.imp fun a b hab => (lineMomentum_iff T a b).1 hab
  · exact fun h => h.imp fun a b hab => (lineMomentum_iff T a b).2 hab

/-! ### the order of the particles -/

theorem takeLine_none {t : String} {cur : List (String × Line)} (h : takeLine t cur = none) : cur.filter (fun x => x.1 = t) = [] := by
  induction cur with
  | nil => rfl
  | cons c cur ih =>
    obtain ⟨n, l⟩ := c
    unfold takeLine at h
    by_cases hn : n = t
    · rw [if_pos hn] at h; cases h
    · rw [if_neg hn] at h
      rw [List.filter_cons_of_neg (by simpa using hn)]
      apply ih
      cases ht : takeLine t cur with
      | none => rfl
      | some r => rw [ht] at h; cases h

theorem takeLine_some {t : String} (ht : t ≠ "") {cur : List (String × Line)} {r : Line × List (String × Line)} (h : takeLine t cur = some r) :
    cur.filter (fun x => x.1 = t) = (t, r.1) :: r.2.filter (fun x => x.1 = t) ∧
      ∀ n, n ≠ t → n ≠ "" → r.2.filter (fun x => x.1 = n) = cur.filter (fun x => x.1 = n) := by
  induction cur generalizing r with
  | nil => cases h
  | cons c cur ih =>
    obtain ⟨n, l⟩ := c
    unfold takeLine at h
    by_cases hn : n = t
    · rw [if_pos hn] at h
      have := Option.some.inj h
      subst this
      subst hn
      constructor
      · rw [List.filter_cons_of_pos (by simp), List.filter_cons_of_neg (by simpa using Ne.symm ht)]
      · intro k hk hk0
        rw [List.filter_cons_of_neg (by simpa using Ne.symm hk0), List.filter_cons_of_neg (by simpa using Ne.symm hk)]
    · rw [if_neg hn] at h
      cases htl : takeLine t cur with
      | none => rw [htl] at h; cases h
      | some r' =>
        rw [htl] at h
        have := Option.some.inj h
        subst this
        obtain ⟨h1, h2⟩ := ih htl
        constructor
        · rw [List.filter_cons_of_neg (by simpa using hn), h1]
          dsimp only
          rw [List.filter_cons_of_neg (by simpa using hn)]
        · intro k hk hk0
          dsimp only
          by_cases hnk : n = k
          · rw [List.filter_cons_of_pos (by simpa using hnk), List.filter_cons_of_pos (by simpa using hnk), h2 k hk hk0]
          · rw [List.filter_cons_of_neg (by simpa using hnk), List.filter_cons_of_neg (by simpa using hnk), h2 k hk hk0]

theorem orderLines_le (ts : List String) : ∀ cur, (orderLines ts cur).length ≤ ts.length := by
  induction ts with
  | nil => intro cur; simp [orderLines]
  | cons t ts ih =>
    intro cur
    unfold orderLines
    cases takeLine t cur with
    | none => exact le_trans (ih cur) (by simp)
    | some r => simpa using ih r.2

theorem orderLines_selected (ts : List String) (hts : ∀ t ∈ ts, t ≠ "") : ∀ cur, (orderLines ts cur).length = ts.length →
    ∀ n, n ≠ "" → (ts.zip (orderLines ts cur)).filter (fun x => x.1 = n) = (cur.filter fun x => x.1 = n).take (ts.count n) := by
  induction ts with
  | nil => intro cur _ n _; simp
  | cons t ts ih =>
    intro cur hl n hn
    unfold orderLines at hl ⊢
    have ht := hts t List.mem_cons_self
    cases htl : takeLine t cur with
    | none =>
      rw [htl] at hl
      have := orderLines_le ts cur
      simp at hl
      omega
    | some r =>
      rw [htl] at hl
      obtain ⟨h1, h2⟩ := takeLine_some ht htl
      have := ih (fun x hx => hts x (List.mem_cons_of_mem _ hx)) r.2 (by simpa using hl) n hn
      dsimp only
      rw [List.zip_cons_cons]
      by_cases hnt : t = n
      · subst hnt
        rw [List.filter_cons_of_pos (by simp), this, h1, List.count_cons_self, List.take_succ_cons]
      · rw [List.filter_cons_of_neg (by simpa using hnt), this, List.count_cons_of_ne hnt, h2 n (Ne.symm hnt) hn]

theorem orderLines_length (ts : List String) (hts : ∀ t ∈ ts, t ≠ "") : ∀ cur : List (String × Line), (∀ n ∈ ts, ts.count n ≤ (cur.filter fun x => x.1 = n).length) →
    (orderLines ts cur).length = ts.length := by
  induction ts with
  | nil => intro cur _; rfl
  | cons t ts ih =>
    intro cur hc
    have ht := hts t List.mem_cons_self
    unfold orderLines
    cases htl : takeLine t cur with
    | none =>
      have h0 := takeLine_none htl
      have := hc t List.mem_cons_self
      rw [h0] at this
      simp at this
    | some r =>
      obtain ⟨h1, h2⟩ := takeLine_some ht htl
      dsimp only
      rw [List.length_cons, List.length_cons, ih (fun x hx => hts x (List.mem_cons_of_mem _ hx)) r.2]
      intro n hn
      have hcn := hc n (List.mem_cons_of_mem _ hn)
      by_cases hnt : t = n
      · subst hnt
        rw [List.count_cons_self, h1, List.length_cons] at hcn
        omega
      · rw [List.count_cons_of_ne hnt] at hcn
        rw [h2 n (Ne.symm hnt) (hts n (List.mem_cons_of_mem _ hn))]
        exact hcn

theorem filter_zip_length {α : Type} (ts : List String) (sel : List α) (h : sel.length = ts.length) (n : String) :
    ((ts.zip sel).filter fun x => x.1 = n).length = ts.count n := by
  induction ts generalizing sel with
  | nil => simp
  | cons t ts ih =>
    cases sel with
    | nil => simp at h
    | cons s sel =>
      rw [List.zip_cons_cons]
      by_cases ht : t = n
      · rw [List.filter_cons_of_pos (by simpa using ht), List.length_cons, ih sel (by simpa using h), ht, List.count_cons_self]
      · rw [List.filter_cons_of_neg (by simpa using ht), ih sel (by simpa using h), List.count_cons_of_ne ht]

theorem selected_unique {α : Type} {ts : List String} {sel sel' : List α} (h : sel.length = ts.length) (h' : sel'.length = ts.length)
    (he : ∀ n, (ts.zip sel).filter (fun x => x.1 = n) = (ts.zip sel').filter (fun x => x.1 = n)) : sel = sel' := by
  induction ts generalizing sel sel' with
  | nil => rw [List.length_eq_zero_iff.1 h, List.length_eq_zero_iff.1 h']
  | cons t ts ih =>
    cases sel with
    | nil => simp at h
    | cons s sel =>
      cases sel' with
      | nil => simp at h'
      | cons s' sel' =>
        have h1 := he t
        rw [List.zip_cons_cons, List.zip_cons_cons, List.filter_cons_of_pos (by simp), List.filter_cons_of_pos (by simp)] at h1
        obtain ⟨h2, -⟩ := List.cons.inj h1
        obtain ⟨-, rfl⟩ := Prod.mk.inj h2
        congr 1
        apply ih (by simpa using h) (by simpa using h')
        intro n
        have h3 := he n
        rw [List.zip_cons_cons, List.zip_cons_cons] at h3
        by_cases ht : t = n
        · rw [List.filter_cons_of_pos (by simpa using ht), List.filter_cons_of_pos (by simpa using ht)] at h3
          exact (List.cons.inj h3).2
        · rw [List.filter_cons_of_neg (by simpa using ht), List.filter_cons_of_neg (by simpa using ht)] at h3
          exact h3

theorem names_ne {T : Text} {ds : List Line} {ns : List String} (h : List.Forall₂ (HasName T) ds ns) : ∀ n ∈ ns, n ≠ "" := by
  induction h with
  | nil => intro n hn; cases hn
  | cons h1 _ ih =>
    intro n hn
    rcases List.mem_cons.1 hn with rfl | hn
    · exact hasName_ne h1
    · exact ih n hn

theorem filter_zip_empty {ns : List String} (h : ∀ n ∈ ns, n ≠ "") {α : Type} (l : List α) : (ns.zip l).filter (fun x => x.1 = "") = [] := by
  rw [List.filter_eq_nil_iff]
  rintro ⟨n, a⟩ hx
  simpa using h n (List.of_mem_zip hx).1

/-- the lines chosen are those of the specification. -/
theorem orderLines_iff {ts ns : List String} (hts : ∀ t ∈ ts, t ≠ "") (hns : ∀ n ∈ ns, n ≠ "") (ds sel : List Line) :
    (orderLines ts (ns.zip ds)).length = ts.length ∧ sel = orderLines ts (ns.zip ds) ↔ Selected ts (ns.zip ds) sel := by
  constructor
  · rintro ⟨h1, rfl⟩
    refine ⟨h1, fun n => ?_⟩
    by_cases hn : n = ""
    · subst hn
      rw [filter_zip_empty hts, filter_zip_empty hns, List.take_nil]
    · exact orderLines_selected ts hts _ h1 n hn
  · rintro ⟨h1, h2⟩
    have hl : (orderLines ts (ns.zip ds)).length = ts.length := by
      apply orderLines_length ts hts
      intro n _
      have := congrArg List.length (h2 n)
      rw [filter_zip_length ts sel h1, List.length_take] at this
      omega
    refine ⟨hl, selected_unique h1 hl fun n => ?_⟩
    rw [h2 n]
    by_cases hn : n = ""
    · subst hn
      rw [filter_zip_empty hts, filter_zip_empty hns, List.take_nil]
    · exact (orderLines_selected ts hts _ hl n hn).symm

/-! ### events -/

theorem getEvent_iff (T : Text) (ls : List Line) (e rest : List Line) : getEvent T ls = .ok (some (e, rest)) ↔
    ∃ w n, ls = [w] :: (e ++ rest) ∧ T.pInt w = some n ∧ n.toNat = e.length ∧ [] ∉ e := by
  constructor
  · intro h
    unfold getEvent at h
    match ls, h with
    | [w] :: ls, h =>
      dsimp only at h
      cases hp : T.pInt w with
      | none => rw [hp] at h; cases h
      | some n =>
        rw [hp] at h
        dsimp only at h
        by_cases hc : (ls.take n.toNat).length < n.toNat ∨ [] ∈ ls.take n.toNat
        · rw [if_pos hc] at h; cases h
        · rw [if_neg hc] at h
          have := Prod.mk.inj (Option.some.inj (Outcome.ok.inj h))
          obtain ⟨rfl, rfl⟩ := this
          push Not at hc
          refine ⟨w, n, by rw [List.take_append_drop], hp, ?_, hc.2⟩
          have := List.length_take_le n.toNat ls
          omega
  · rintro ⟨w, n, rfl, hp, hn, he⟩
    unfold getEvent
    dsimp only
    rw [hp]
    dsimp only
    rw [hn, List.take_left, List.drop_left, if_neg]
    push Not
    exact ⟨le_refl _, he⟩

theorem getEvent_none (T : Text) (ls : List Line) : getEvent T ls = .ok none ↔ IsTail ls := by
  unfold IsTail
  constructor
  · intro h
    match ls, h with
    | [], _ => exact Or.inl rfl
    | [] :: more, _ => exact Or.inr ⟨more, rfl⟩
    | [w] :: ls, h =>
      unfold getEvent at h
      dsimp only at h
      cases hp : T.pInt w with
      | none => rw [hp] at h; cases h
      | some n =>
        rw [hp] at h
        dsimp only at h
        by_cases hc : (ls.take n.toNat).length < n.toNat ∨ [] ∈ ls.take n.toNat
        · rw [if_pos hc] at h; cases h
        · rw [if_neg hc] at h
          cases Outcome.ok.inj h
  · rintro (rfl | ⟨more, rfl⟩) <;> rfl

theorem prodNames_iff (T : Text) (lines : List Line) (l : List String) : prodNames T lines = .ok l ↔ ∃ b ds n, lines = b :: ds ∧ HasName T b n ∧ l = [n] := by
  unfold prodNames
  cases lines with
  | nil =>
    constructor
    · intro h; cases h
    · rintro ⟨b, ds, n, h, _⟩; cases h
  | cons b ds =>
    dsimp only
    rw [Pick.bind_ok_iff]
    constructor
    · rintro ⟨n, h1, h2⟩
      exact ⟨b, ds, n, rfl, (lineName_iff T b n).1 h1, (Outcome.ok.inj h2).symm⟩
    · rintro ⟨b', ds', n, h, hn, rfl⟩
      obtain ⟨rfl, rfl⟩ := List.cons.inj h
      exact ⟨n, (lineName_iff T b n).2 hn, rfl⟩

/-- the event of particle lines, as in `RowOf`. -/
def LinesRow (T : Text) (beam : String) (names : List String) (lines : List Line) (row : Row) : Prop :=
  ∃ b ds ns p sel, lines = b :: ds ∧ HasName T b beam ∧ List.Forall₂ (HasName T) ds ns ∧ Selected names (ns.zip ds) sel ∧
    HasMomentum T b p ∧ List.Forall₂ (HasMomentum T) sel row.decay ∧ row.prod = [p] ∧ row.vals = []

theorem reorder_iff (T : Text) (beam : String) (names : List String) (lines out : List Line) : reorder T [beam] names lines = .ok out ↔
    ∃ b ds ns, lines = b :: ds ∧ HasName T b beam ∧ List.Forall₂ (HasName T) ds ns ∧ out = b :: orderLines names (ns.zip ds) := by
  unfold reorder
  rw [Pick.bind_ok_iff]
  constructor
  · rintro ⟨p, hp, h⟩
    obtain ⟨d, hd, h'⟩ := (Pick.bind_ok_iff _ _ _).1 h
    clear h
    obtain ⟨b, ds, n, rfl, hn, rfl⟩ := (prodNames_iff T lines p).1 hp
    by_cases hc : ([n] : List String).head? ≠ ([beam] : List String).head?
    · rw [if_pos hc] at h'; cases h'
    · rw [if_neg hc] at h'
      have hnb : n = beam := by simpa using hc
      subst hnb
      exact ⟨b, ds, d, rfl, hn, (names_iff T ds d).1 hd, (Outcome.ok.inj h').symm⟩
  · rintro ⟨b, ds, ns, rfl, hn, hd, rfl⟩
    refine ⟨[beam], (prodNames_iff T _ _).2 ⟨b, ds, beam, rfl, hn, rfl⟩, (Pick.bind_ok_iff _ _ _).2 ⟨ns, (names_iff T ds ns).2 hd, ?_⟩⟩
    rw [if_neg (by simp)]

theorem addEvent_iff {w : EventWriter} {t : Tree} (hi : w.initialized = true) (ht : w.meta_.tree = some t) (p d : List Vec3) (v : List Dbl) (w' : EventWriter) :
    w.addEvent p d v = .ok w' ↔ (p.length = w.nProd ∧ d.length = w.nDecay ∧ v.length = w.nAdd) ∧ w' = Deweight.extend w t [⟨p, d, v⟩] := by
  constructor
  · intro h
    have hshape : p.length = w.nProd ∧ d.length = w.nDecay ∧ v.length = w.nAdd := by
      unfold EventWriter.addEvent at h
      rw [if_neg (by simp [hi])] at h
      by_cases h1 : p.length ≠ w.nProd
      · rw [if_pos h1] at h; cases h
      rw [if_neg h1] at h
      by_cases h2 : d.length ≠ w.nDecay
      · rw [if_pos h2] at h; cases h
      rw [if_neg h2] at h
      by_cases h3 : v.length ≠ w.nAdd
      · rw [if_pos h3] at h; cases h
      push Not at h1 h2 h3
      exact ⟨h1, h2, h3⟩
    refine ⟨hshape, ?_⟩
    have := Deweight.addEvent_ok hi ht ⟨p, d, v⟩ hshape
    rw [show w.addEvent p d v = _ from this] at h
    rw [← Outcome.ok.inj h]
    unfold Deweight.extend
    simp
  · rintro ⟨hshape, rfl⟩
    have := Deweight.addEvent_ok hi ht ⟨p, d, v⟩ hshape
    refine Eq.trans this ?_
    unfold Deweight.extend
    simp

theorem convertEvent_iff (T : Text) (beam : String) (names : List String) (hnm : ∀ n ∈ names, n ≠ "") {w : EventWriter} {t : Tree} (hi : w.initialized = true) (ht : w.meta_.tree = some t)
    (hw : w.nProd = 1 ∧ w.nDecay = names.length ∧ w.nAdd = 0) (lines : List Line) (w' : EventWriter) :
    convertEvent T [beam] names w lines = .ok w' ↔ ∃ row, LinesRow T beam names lines row ∧ w' = Deweight.extend w t [row] := by
  unfold convertEvent
  rw [Pick.bind_ok_iff]
  constructor
  · rintro ⟨out, ho, h⟩
    obtain ⟨b, ds, ns, rfl, hb, hds, rfl⟩ := (reorder_iff T beam names lines out).1 ho
    dsimp only at h
    obtain ⟨p, hp, h⟩ := (Pick.bind_ok_iff _ _ _).1 h
    obtain ⟨d, hd, h⟩ := (Pick.bind_ok_iff _ _ _).1 h
    have hd' := (momenta_iff T _ d).1 hd
    obtain ⟨⟨-, h2, -⟩, rfl⟩ := (addEvent_iff hi ht _ _ _ _).1 h
    refine ⟨⟨[p], d, []⟩, ⟨b, ds, ns, p, _, rfl, hb, hds, (orderLines_iff hnm (names_ne hds) ds _).1 ⟨?_, rfl⟩, (lineMomentum_iff T b p).1 hp, hd', rfl, rfl⟩, rfl⟩
    rw [hd'.length_eq, h2, hw.2.1]
  · rintro ⟨row, ⟨b, ds, ns, p, sel, rfl, hb, hds, hsel, hp, hd, hrp, hrv⟩, rfl⟩
    obtain ⟨hl, rfl⟩ := (orderLines_iff hnm (names_ne hds) ds sel).2 hsel
    refine ⟨b :: orderLines names (ns.zip ds), (reorder_iff T beam names _ _).2 ⟨b, ds, ns, rfl, hb, hds, rfl⟩, ?_⟩
    dsimp only
    refine (Pick.bind_ok_iff _ _ _).2 ⟨p, (lineMomentum_iff T b p).2 hp, (Pick.bind_ok_iff _ _ _).2 ⟨row.decay, (momenta_iff T _ _).2 hd, ?_⟩⟩
    refine (addEvent_iff hi ht _ _ _ _).2 ⟨⟨hw.1.symm, ?_, hw.2.2.symm⟩, ?_⟩
    · rw [← hd.length_eq, hl, hw.2.1]
    · obtain ⟨rp, rd, rv⟩ := row
      dsimp only at hrp hrv
      rw [hrp, hrv]

theorem isBlock_lines {T : Text} {b : Line} {ds block : List Line} (h : IsBlock T b ds block) (rest : List Line) :
    getEvent T (block ++ rest) = .ok (some (b :: ds, rest)) := by
  obtain ⟨w, rfl, hp, hb, hd⟩ := h
  rw [getEvent_iff]
  refine ⟨w, _, rfl, hp, ?_, ?_⟩
  · simp
    omega
  · intro hc
    rcases List.mem_cons.1 hc with hc | hc
    · exact hb hc.symm
    · exact hd _ hc rfl

theorem convertLoop_iff (T : Text) (beam : String) (names : List String) (hnm : ∀ n ∈ names, n ≠ "") : ∀ (k : ℕ) (w : EventWriter) (t : Tree) (ls : List Line) (w' : EventWriter),
    ls.length < k → w.initialized = true → w.meta_.tree = some t → (w.nProd = 1 ∧ w.nDecay = names.length ∧ w.nAdd = 0) →
    (convertLoop T [beam] names k w ls = .ok w' ↔ ∃ blocks tail rows, ls = blocks.flatten ++ tail ∧ IsTail tail ∧ List.Forall₂ (RowOf T beam names) blocks rows ∧ w' = Deweight.extend w t rows) := by
  intro k
  induction k with
  | zero => intro w t ls w' hk; omega
  | succ k ih =>
    intro w t ls w' hk hi ht hw
    unfold convertLoop
    rw [Pick.bind_ok_iff]
    constructor
    · rintro ⟨e, he, h⟩
      cases e with
      | none =>
        dsimp only at h
        refine ⟨[], ls, [], rfl, (getEvent_none T ls).1 he, .nil, ?_⟩
        rw [Deweight.extend_nil ht]
        exact (Outcome.ok.inj h).symm
      | some e =>
        obtain ⟨lines, rest⟩ := e
        dsimp only at h
        obtain ⟨w1, hw1, h⟩ := (Pick.bind_ok_iff _ _ _).1 h
        obtain ⟨row, hrow, rfl⟩ := (convertEvent_iff T beam names hnm hi ht hw _ _).1 hw1
        obtain ⟨cw, n, hls, hp, hn, hne⟩ := (getEvent_iff T ls lines rest).1 he
        have hlen : rest.length < k := by
          rw [hls] at hk
          simp at hk
          omega
        obtain ⟨blocks, tail, rows, rfl, htail, hf, rfl⟩ := (ih (Deweight.extend w t [row]) { t with rows := t.rows ++ [row] } rest w' hlen hi rfl hw).1 h
        refine ⟨([cw] :: lines) :: blocks, tail, row :: rows, by simp [hls], htail, .cons ?_ hf, ?_⟩
        · obtain ⟨b, ds, ns, p, sel, rfl, h1, h2, h3, h4, h5, h6, h7⟩ := hrow
          refine ⟨b, ds, ns, p, sel, ⟨cw, rfl, ?_, ?_, ?_⟩, h1, h2, h3, h4, h5, h6, h7⟩
          · rw [hp]
            simp at hn
            congr 1
            omega
          · intro hb; subst hb; exact hne List.mem_cons_self
          · intro l hl hb; subst hb; exact hne (List.mem_cons_of_mem _ hl)
        · unfold Deweight.extend
          simp
    · rintro ⟨blocks, tail, rows, rfl, htail, hf, rfl⟩
      cases hf with
      | nil =>
        refine ⟨none, (getEvent_none T _).2 (by simpa using htail), ?_⟩
        rw [Deweight.extend_nil ht]
      | @cons block row blocks rows hrow hf =>
        obtain ⟨b, ds, ns, p, sel, hblock, h1, h2, h3, h4, h5, h6, h7⟩ := hrow
        have hge := isBlock_lines hblock (blocks.flatten ++ tail)
        refine ⟨some (b :: ds, blocks.flatten ++ tail), by rw [List.flatten_cons, List.append_assoc]; exact hge, ?_⟩
        dsimp only
        refine (Pick.bind_ok_iff _ _ _).2 ⟨Deweight.extend w t [row], (convertEvent_iff T beam names hnm hi ht hw _ _).2 ⟨row, ⟨b, ds, ns, p, sel, rfl, h1, h2, h3, h4, h5, h6, h7⟩, rfl⟩, ?_⟩
        have hlen : (blocks.flatten ++ tail).length < k := by
          obtain ⟨cw, hb, -⟩ := hblock
          rw [List.flatten_cons, hb] at hk
          simp at hk ⊢
          omega
        refine (ih (Deweight.extend w t [row]) { t with rows := t.rows ++ [row] } _ _ hlen hi rfl hw).2 ⟨blocks, tail, rows, rfl, htail, hf, ?_⟩
        unfold Deweight.extend
        simp

/-- **C94** the conversion of a text succeeds exactly if the text is a non-empty sequence of events (number of particles, beam, decay particles), up to its end or to an
empty line, where every event has the beam of the first one and for every name at least as many particles as the first one; the file
has one entry per event, in order: the momenta in the order of the particles of the first event, the particles of the same name
in the order of the text; hash and metadata are right. -/
theorem read_iff (md5 : Hashor → String) (T : Text) (a : ConvArgs) (ls : List Line) (m : EventMeta) : evtToTree md5 T a ls = .ok m ↔
    ∃ bounds beam names block blocks tail rows, a.bounds = some bounds ∧ ls = (block :: blocks).flatten ++ tail ∧ IsTail tail ∧
      (∃ b ds, IsBlock T b ds block ∧ HasName T b beam ∧ List.Forall₂ (HasName T) ds names) ∧
      List.Forall₂ (RowOf T beam names) (block :: blocks) rows ∧ m = fileWith md5 a bounds beam names rows := by
  unfold evtToTree
  cases hbd : a.bounds with
  | none =>
    dsimp only
    constructor
    · intro h; cases h
    · rintro ⟨_, _, _, _, _, _, _, h, _⟩; cases h
  | some bounds =>
    dsimp only
    rw [Pick.bind_ok_iff]
    constructor
    · rintro ⟨e, he, h⟩
      cases e with
      | none => dsimp only at h; cases h
      | some e =>
        obtain ⟨lines, rest⟩ := e
        dsimp only at h
        obtain ⟨p, hp, h1⟩ := (Pick.bind_ok_iff _ _ _).1 h
        clear h
        obtain ⟨d, hd, h⟩ := (Pick.bind_ok_iff _ _ _).1 h1
        clear h1
        obtain ⟨b, ds, beam, rfl, hb, rfl⟩ := (prodNames_iff T lines p).1 hp
        have hds := (names_iff T ds d).1 hd
        rw [if_neg (by simp [EventWriter.initialize, EventWriter.new])] at h
        obtain ⟨w, hw, h1⟩ := (Pick.bind_ok_iff _ _ _).1 h
        clear h
        obtain ⟨blocks, tail, rows, hls, htail, hf, rfl⟩ := (convertLoop_iff T beam d (names_ne hds) _ _ ⟨[], []⟩ ls w (Nat.lt_succ_self _) rfl rfl ⟨rfl, rfl, rfl⟩).1 hw
        cases hf with
        | nil =>
          have := (getEvent_none T ls).2 (by rw [hls]; simpa using htail)
          rw [this] at he
          cases Outcome.ok.inj he
        | @cons block row blocks rows hrow hf =>
          refine ⟨bounds, beam, d, block, blocks, tail, row :: rows, rfl, hls, htail, ?_, .cons hrow hf, ?_⟩
          · obtain ⟨b', ds', ns, p, sel, hblock, h1, h2, -⟩ := hrow
            have hge := isBlock_lines hblock (blocks.flatten ++ tail)
            rw [hls, List.flatten_cons, List.append_assoc, hge] at he
            obtain ⟨he1, -⟩ := Prod.mk.inj (Option.some.inj (Outcome.ok.inj he))
            obtain ⟨rfl, rfl⟩ := List.cons.inj he1
            exact ⟨b', ds', hblock, hb, hds⟩
          · exact (Outcome.ok.inj h1).symm
    · rintro ⟨bounds', beam, names, block, blocks, tail, rows, hb', rfl, htail, ⟨b, ds, hblock, hb, hds⟩, hf, rfl⟩
      obtain rfl := Option.some.inj hb'
      have hge := isBlock_lines hblock (blocks.flatten ++ tail)
      refine ⟨some (b :: ds, blocks.flatten ++ tail), by rw [List.flatten_cons, List.append_assoc]; exact hge, ?_⟩
      dsimp only
      refine (Pick.bind_ok_iff _ _ _).2 ⟨[beam], (prodNames_iff T _ _).2 ⟨b, ds, beam, rfl, hb, rfl⟩, (Pick.bind_ok_iff _ _ _).2 ⟨names, (names_iff T ds names).2 hds, ?_⟩⟩
      rw [if_neg (by simp [EventWriter.initialize, EventWriter.new])]
      refine (Pick.bind_ok_iff _ _ _).2 ⟨Deweight.extend _ ⟨[], []⟩ rows, (convertLoop_iff T beam names (names_ne hds) _ _ ⟨[], []⟩ _ _ (Nat.lt_succ_self _) rfl rfl ⟨rfl, rfl, rfl⟩).2
        ⟨block :: blocks, tail, rows, rfl, htail, hf, rfl⟩, ?_⟩
      rfl

end Rpwa.EvtConvert
