import Verif.Props.MultiBin
import Mathlib.Data.List.Nodup
/-!
# Files used for a bin (C41) -/
namespace Rpwa.MultiBin

/-! ### event files -/

/-- **C41** a file is used for a bin exactly if its recorded ranges and the ranges of the bin meet (touching included) in every common variable. -/
theorem mem_eventFileIds (files : List InputFile) (bin : Boundaries) (hb : WF bin) (i : ℕ) :
    i ∈ eventFileIds files bin ↔ ∃ f, files[i]? = some f ∧ ∀ e ∈ f.boundaries, ∀ r, (e.1, r) ∈ bin → r.1 ≤ e.2.2 ∧ e.2.1 ≤ r.2 := by
  unfold eventFileIds
  rw [List.mem_map]
  constructor
  · rintro ⟨⟨f, j⟩, hf, rfl⟩
    rw [List.mem_filter] at hf
    refine ⟨f, List.mem_zipIdx_iff_getElem?.1 hf.1, fun e he r hr => ?_⟩
    have h1 := List.all_eq_true.1 hf.2 e he
    rw [lookup_of_mem hb.nodup hr] at h1
    simp at h1
    exact h1
  · rintro ⟨f, hf, h⟩
    refine ⟨(f, i), ?_, rfl⟩
    rw [List.mem_filter]
    refine ⟨List.mem_zipIdx_iff_getElem?.2 hf, ?_⟩
    simp only
    rw [List.all_eq_true]
    intro e he
    cases hl : bin.lookup e.1 with
    | none => rfl
    | some r =>
      have := h e he r (mem_of_lookup hl)
      simpa using this

/-- **C41** no event is lost: a file with an event in the bin is used, whenever the events of the file are in its recorded ranges. -/
theorem eventFileIds_complete (files : List InputFile) (bin : Boundaries) (hb : WF bin) (i : ℕ) (f : InputFile) (hf : files[i]? = some f)
    (x : String → ℚ) (hx : HoldsClosed f.boundaries x) (hbin : Holds bin x) : i ∈ eventFileIds files bin := by
  rw [mem_eventFileIds files bin hb]
  refine ⟨f, hf, fun e he r hr => ?_⟩
  have h1 := hx e he
  have h2 := hbin _ hr
  simp only at h2
  exact ⟨by linarith [h1.2, h2.1], by linarith [h1.1, h2.2]⟩

/-- **C41** the files are used in their order, each once. -/
theorem eventFileIds_sorted (files : List InputFile) (bin : Boundaries) : (eventFileIds files bin).Pairwise (· < ·) := by
  unfold eventFileIds
  refine List.Pairwise.sublist (List.filter_sublist.map _) ?_
  rw [List.zipIdx_map_snd]
  exact List.pairwise_lt_range'

open Classical in
/-- **C41** the events of the bin in the used files are the events of the bin in all files, for any contents within the recorded ranges. -/
theorem eventFileIds_events (files : List InputFile) (bin : Boundaries) (hb : WF bin) (events : ℕ → List (String → ℚ))
    (he : ∀ i f, files[i]? = some f → ∀ x ∈ events i, HoldsClosed f.boundaries x) :
    (eventFileIds files bin).flatMap (fun i => (events i).filter fun x => decide (Holds bin x)) =
      (List.range files.length).flatMap (fun i => (events i).filter fun x => decide (Holds bin x)) := by
  have key : ∀ (l : List (InputFile × ℕ)) (p : InputFile × ℕ → Bool) (g : ℕ → List (String → ℚ)),
      (∀ x ∈ l, p x = false → g x.2 = []) → ((l.filter p).map (·.2)).flatMap g = (l.map (·.2)).flatMap g := by
    intro l p g h
    induction l with
    | nil => rfl
    | cons x l ih =>
      have ih' := ih fun y hy => h y (List.mem_cons_of_mem _ hy)
      by_cases hp : p x = true
      · rw [List.filter_cons_of_pos hp, List.map_cons, List.map_cons, List.flatMap_cons, List.flatMap_cons, ih']
      · rw [List.filter_cons_of_neg hp, ih', List.map_cons, List.flatMap_cons, h x List.mem_cons_self (by simpa using hp)]
        rfl
  have hr : List.range files.length = files.zipIdx.map (·.2) := by
    rw [List.zipIdx_map_snd, List.range_eq_range']
  rw [hr]
  unfold eventFileIds
  refine key _ _ _ fun y hy hp => ?_
  rw [List.filter_eq_nil_iff]
  intro x hx
  rw [decide_eq_true_eq]
  intro hh
  have hm := eventFileIds_complete files bin hb y.2 y.1 (List.mem_zipIdx_iff_getElem?.1 hy) x (he _ _ (List.mem_zipIdx_iff_getElem?.1 hy) x hx) hh
  unfold eventFileIds at hm
  obtain ⟨z, hz, hzy⟩ := List.mem_map.1 hm
  rw [List.mem_filter] at hz
  have : z = y := by
    have h1 := List.mem_zipIdx_iff_getElem?.1 hz.1
    have h2 := List.mem_zipIdx_iff_getElem?.1 hy
    rw [hzy, h2, Option.some.injEq] at h1
    exact Prod.ext h1.symm hzy
  rw [this, hp] at hz
  simp at hz

/-! ### file names -/

theorem str_digit (n : ℕ) : ∀ c ∈ str n, c.isDigit = true := Rpwa.Fit.repr_isDigit n

theorem str_inj {m n : ℕ} (h : str m = str n) : m = n := Rpwa.Fit.repr_inj h

theorem str_no (n : ℕ) (d : Char) (h : d.isDigit = false) : d ∉ str n := fun hm => by
  rw [str_digit n d hm] at h; simp at h

/-- **C41** the name of an amplitude file determines the wave (or tag), the event file and the type of the events. -/
theorem amplitudeFileName_inj {t t' : List Char} {i i' y y' : ℕ} (h : amplitudeFileName t i y = amplitudeFileName t' i' y') : t = t' ∧ i = i' ∧ y = y' := by
  unfold amplitudeFileName at h
  have h1 := List.append_cancel_right h
  have h2 := congrArg List.reverse h1
  have u : "_".toList = ['_'] := by decide +kernel
  have v : "_eventFileId-".toList = "_eventFileId".toList ++ ['-'] := by decide +kernel
  rw [u, v] at h2
  simp only [List.reverse_append, List.reverse_cons, List.reverse_nil, List.append_assoc, List.singleton_append, List.cons_append, List.nil_append] at h2
  have nd : ∀ n, '_' ∉ (str n).reverse := fun n hm => str_no n '_' (by decide) (List.mem_reverse.1 hm)
  obtain ⟨h3, h4⟩ := Rpwa.Fit.char_sep '_' (nd y) (nd y') h2
  have hy := str_inj (List.reverse_injective h3)
  have ne : ∀ n, '-' ∉ (str n).reverse := fun n hm => str_no n '-' (by decide) (List.mem_reverse.1 hm)
  obtain ⟨h5, h6⟩ := Rpwa.Fit.char_sep '-' (ne i) (ne i') h4
  have hi := str_inj (List.reverse_injective h5)
  exact ⟨List.reverse_injective (List.append_cancel_left h6), hi, hy⟩

theorem pathJoin_inj {d a b : List Char} (ha : a.head? ≠ some '/') (hb : b.head? ≠ some '/') (h : pathJoin d a = pathJoin d b) : a = b := by
  unfold pathJoin at h
  rw [if_neg ha, if_neg hb] at h
  split at h
  · exact List.append_cancel_left h
  · exact (List.cons.inj (List.append_cancel_left h)).2

theorem amplitudeFileName_head {t : List Char} (h : t.head? ≠ some '/') (i y : ℕ) : (amplitudeFileName t i y).head? ≠ some '/' := by
  unfold amplitudeFileName
  cases t with
  | nil =>
    have v : "_eventFileId-".toList = '_' :: "eventFileId-".toList := by decide +kernel
    rw [v]
    simp
  | cons c t => simpa using h

/-- names of files that are relative. -/
def Relative (merged : List (String × List String)) (w : String) : Prop :=
  ∀ tag, amplitudeTag merged w = some tag → tag.toList.head? ≠ some '/'

/-- **C41** without explicitly given files, the amplitudes of two waves of an event file are in the same file only if the waves have the same
name or tag, and amplitudes of other event files or other types are in other files.
Missing: explicitly given files, which can be anything, and a tag equal to the name of another wave (`tag_collision`). -/
theorem amplitudeFilePath_inj_partial (dir : List Char) (merged : List (String × List String)) {y y' i i' : ℕ} {w w' : String} {p : List Char}
    (hr : Relative merged w) (hr' : Relative merged w')
    (h : amplitudeFilePath dir [] merged y i w = some p) (h' : amplitudeFilePath dir [] merged y' i' w' = some p) :
    y = y' ∧ i = i' ∧ amplitudeTag merged w = amplitudeTag merged w' := by
  unfold amplitudeFilePath at h h'
  simp only [List.find?_nil, Option.map_eq_some_iff] at h h'
  obtain ⟨t, ht, rfl⟩ := h
  obtain ⟨t', ht', he⟩ := h'
  have h1 := pathJoin_inj (amplitudeFileName_head (hr' t' ht') _ _) (amplitudeFileName_head (hr t ht) _ _) he
  obtain ⟨h2, h3, h4⟩ := amplitudeFileName_inj h1
  rw [ht, ht', String.toList_inj.1 h2]
  exact ⟨h4.symm, h3.symm, rfl⟩

/-- **C41** without merged files, every wave, event file and type has its own file. -/
theorem amplitudeFilePath_unique (dir : List Char) {y y' i i' : ℕ} {w w' : String} {p : List Char}
    (hr : w.toList.head? ≠ some '/') (hr' : w'.toList.head? ≠ some '/')
    (h : amplitudeFilePath dir [] [] y i w = some p) (h' : amplitudeFilePath dir [] [] y' i' w' = some p) : (y, i, w) = (y', i', w') := by
  have hw : ∀ w : String, amplitudeTag [] w = some w := fun w => by simp [amplitudeTag]
  have := amplitudeFilePath_inj_partial dir [] (fun t ht => by rw [hw, Option.some.injEq] at ht; rw [← ht]; exact hr)
    (fun t ht => by rw [hw, Option.some.injEq] at ht; rw [← ht]; exact hr') h h'
  rw [hw, hw, Option.some.injEq] at this
  rw [this.1, this.2.1, this.2.2]

/-- **C41** a merged file has the name of the file of another wave, if the tag is the name of that wave: nothing checks this. -/
theorem tag_collision : ∃ (merged : List (String × List String)) (w w' : String), w ≠ w' ∧ w' ∉ merged.flatMap (·.2) ∧
    ∀ dir y i, amplitudeFilePath dir [] merged y i w = amplitudeFilePath dir [] merged y i w' := by
  refine ⟨[("b", ["a"])], "a", "b", by decide, by decide, fun dir y i => ?_⟩
  have h1 : amplitudeTag [("b", ["a"])] "a" = some "b" := by decide +kernel
  have h2 : amplitudeTag [("b", ["a"])] "b" = some "b" := by decide +kernel
  unfold amplitudeFilePath
  rw [h1, h2]
  rfl

/-- **C41** names of integral files determine bin and type. -/
theorem integralFileName_inj {i i' y y' : ℕ} (h : integralFileName i y = integralFileName i' y') : i = i' ∧ y = y' := by
  unfold integralFileName at h
  have u : "_".toList = ['_'] := by decide +kernel
  have h1 := List.append_cancel_right h
  rw [u, List.append_assoc, List.append_assoc, List.append_assoc, List.append_assoc] at h1
  have h2 := List.append_cancel_left h1
  simp only [List.singleton_append] at h2
  obtain ⟨h3, h4⟩ := Rpwa.Fit.char_sep '_' (str_no i '_' (by decide)) (str_no i' '_' (by decide)) h2
  exact ⟨str_inj h3, str_inj h4⟩

theorem integralFileOf_some {bins : List Boundaries} {b : Boundaries} {y : ℕ} {p : List Char} (h : integralFileOf bins b y = some p) :
    ∃ i, bins.findIdx? (eq b) = some i ∧ bins[i]? = some b ∧ p = integralFileName i y ∧ (y = 2 ∨ y = 3) := by
  unfold integralFileOf at h
  cases hf : bins.findIdx? (eq b) with
  | none => rw [hf] at h; simp at h
  | some i =>
    rw [hf] at h
    by_cases hy : y = 2 ∨ y = 3
    · simp only [if_pos hy, Option.some.injEq] at h
      obtain ⟨hi, h1, -⟩ := List.findIdx?_eq_some_iff_getElem.1 hf
      rw [eq_iff] at h1
      exact ⟨i, rfl, by rw [List.getElem?_eq_getElem hi, ← h1], h.symm, hy⟩
    · simp [if_neg hy] at h

/-- **C41** there is an integral file for exactly the bins of the list and generated or accepted events, -/
theorem integralFileOf_isSome (bins : List Boundaries) (b : Boundaries) (y : ℕ) : (integralFileOf bins b y).isSome = true ↔ b ∈ bins ∧ (y = 2 ∨ y = 3) := by
  constructor
  · intro h
    obtain ⟨p, hp⟩ := Option.isSome_iff_exists.1 h
    obtain ⟨i, -, h2, -, h4⟩ := integralFileOf_some hp
    exact ⟨List.mem_of_getElem? h2, h4⟩
  · rintro ⟨hb, hy⟩
    unfold integralFileOf
    cases hf : bins.findIdx? (eq b) with
    | none =>
      rw [List.findIdx?_eq_none_iff] at hf
      have := hf b hb
      rw [(eq_iff b b).2 rfl] at this
      simp at this
    | some i => simp [if_pos hy]

/-- **C41** and its own for each. -/
theorem integralFileOf_inj {bins : List Boundaries} {b b' : Boundaries} {y y' : ℕ} {p : List Char}
    (h : integralFileOf bins b y = some p) (h' : integralFileOf bins b' y' = some p) : b = b' ∧ y = y' := by
  obtain ⟨i, -, h2, h3, -⟩ := integralFileOf_some h
  obtain ⟨i', -, h2', h3', -⟩ := integralFileOf_some h'
  obtain ⟨hi, hy⟩ := integralFileName_inj (h3.symm.trans h3')
  subst hi
  rw [h2] at h2'
  exact ⟨Option.some.inj h2', hy⟩

/-! ### bins from the event files -/

theorem construct_some {b c : Boundaries} (h : construct b = some c) : b = c := by
  unfold construct at h
  split at h
  · simp at h
  · exact Option.some.inj h

theorem fallback_spec (files : List InputFile) (bins r : List Boundaries) (hn : bins.Nodup)
    (h : files.foldlM (fun bins f => do let b ← construct f.boundaries; pure (if bins.any (eq b) then bins else bins ++ [b])) bins = some r) :
    r.Nodup ∧ ∀ b, b ∈ r ↔ b ∈ bins ∨ ∃ f ∈ files, f.boundaries = b := by
  induction files generalizing bins with
  | nil =>
    simp only [List.foldlM_nil, Option.pure_def, Option.some.injEq] at h
    subst h
    exact ⟨hn, fun b => by simp⟩
  | cons f fs ih =>
    rw [List.foldlM_cons] at h
    cases hc : construct f.boundaries with
    | none => rw [hc] at h; simp at h
    | some c =>
      rw [hc] at h
      simp only [Option.bind_eq_bind, Option.bind_some, Option.pure_def] at h
      have hfc := construct_some hc
      by_cases ha : bins.any (eq c) = true
      · rw [if_pos ha] at h
        obtain ⟨h1, h2⟩ := ih bins hn h
        obtain ⟨d, hd, he⟩ := List.any_eq_true.1 ha
        rw [eq_iff] at he
        subst he
        refine ⟨h1, fun b => ?_⟩
        rw [h2 b]
        constructor
        · rintro (h | ⟨g, hg, rfl⟩)
          · exact Or.inl h
          · exact Or.inr ⟨g, List.mem_cons_of_mem _ hg, rfl⟩
        · rintro (h | ⟨g, hg, rfl⟩)
          · exact Or.inl h
          · rcases List.mem_cons.1 hg with rfl | hg
            · exact Or.inl (hfc ▸ hd)
            · exact Or.inr ⟨g, hg, rfl⟩
      · rw [if_neg ha] at h
        have hnm : c ∉ bins := fun hm => ha (List.any_eq_true.2 ⟨c, hm, (eq_iff c c).2 rfl⟩)
        obtain ⟨h1, h2⟩ := ih (bins ++ [c]) (by
          rw [List.nodup_append]
          exact ⟨hn, by simp, by rintro x hx y hy; rw [List.mem_singleton] at hy; subst hy; rintro rfl; exact hnm hx⟩) h
        refine ⟨h1, fun b => ?_⟩
        rw [h2 b, List.mem_append, List.mem_singleton]
        constructor
        · rintro ((h | rfl) | ⟨g, hg, rfl⟩)
          · exact Or.inl h
          · exact Or.inr ⟨f, List.mem_cons_self, hfc⟩
          · exact Or.inr ⟨g, List.mem_cons_of_mem _ hg, rfl⟩
        · rintro (h | ⟨g, hg, rfl⟩)
          · exact Or.inl (Or.inl h)
          · rcases List.mem_cons.1 hg with rfl | hg
            · exact Or.inl (Or.inr hfc)
            · exact Or.inr ⟨g, hg, rfl⟩

/-- **C41** without bins in the configuration, the bins are those of the event files, each once. -/
theorem fallbackBins_spec (files : List InputFile) (r : List Boundaries) (h : fallbackBins files = some r) :
    r.Nodup ∧ ∀ b, b ∈ r ↔ ∃ f ∈ files, f.boundaries = b := by
  obtain ⟨h1, h2⟩ := fallback_spec files [] r List.nodup_nil h
  exact ⟨h1, fun b => by rw [h2 b]; simp⟩

/-! ### amplitude files of a bin -/

theorem mapM_some {α β : Type} {l : List α} {f : α → Option β} {r : List β} (h : l.mapM f = some r) : List.Forall₂ (fun a b => f a = some b) l r := by
  induction l generalizing r with
  | nil => simp at h; subst h; exact List.Forall₂.nil
  | cons a l ih =>
    rw [List.mapM_cons] at h
    cases ha : f a with
    | none => rw [ha] at h; simp at h
    | some b =>
      rw [ha] at h
      simp only [Option.bind_eq_bind, Option.bind_some, Option.pure_def] at h
      cases hl : l.mapM f with
      | none => rw [hl] at h; simp at h
      | some bs =>
        rw [hl] at h
        simp only [Option.bind_some, Option.some.injEq] at h
        subst h
        exact List.Forall₂.cons ha (ih hl)

/-- **C41** for a bin one gets every event file that is needed, with one amplitude file for every wave in the order of the waves. -/
theorem filesInBin_spec (dir : List Char) (special : List ((ℕ × ℕ × String) × List Char)) (merged : List (String × List String)) (waves : List String)
    (files : List InputFile) (y : ℕ) (bin : Boundaries) (r : List (String × List (String × List Char)))
    (h : filesInBin dir special merged waves files y bin = some r) :
    List.Forall₂ (fun id e => (files[id]?).map InputFile.dataFileName = some e.1 ∧
      List.Forall₂ (fun w a => a.1 = w ∧ amplitudeFilePath dir special merged y id w = some a.2) waves e.2) (eventFileIds files bin) r := by
  refine (mapM_some h).imp fun id e he => ?_
  cases hf : files[id]? with
  | none => rw [hf] at he; simp at he
  | some f =>
    rw [hf] at he
    simp only [Option.bind_eq_bind, Option.bind_some, Option.pure_def] at he
    cases hw : waves.mapM (fun w => (amplitudeFilePath dir special merged y id w).bind fun p => some (w, p)) with
    | none => rw [hw] at he; simp at he
    | some amps =>
      rw [hw] at he
      simp only [Option.bind_some, Option.some.injEq] at he
      subst he
      refine ⟨rfl, (mapM_some hw).imp fun w a ha => ?_⟩
      cases hp : amplitudeFilePath dir special merged y id w with
      | none => rw [hp] at ha; simp at ha
      | some p =>
        rw [hp] at ha
        simp only [Option.bind_some, Option.some.injEq] at ha
        subst ha
        exact ⟨rfl, rfl⟩

/-! ### non-vacuity -/

def fileA : InputFile := ⟨"a.root", binA⟩
def fileB : InputFile := ⟨"b.root", binB⟩

/-- a bin over both files. -/
example : eventFileIds [fileA, fileB] [("mass", (6/5, 8/5))] = [0, 1] := by decide +kernel
/-- the first bin takes the second file as well since they touch. -/
example : eventFileIds [fileA, fileB] [("mass", (1, 3/2))] = [0, 1] := by decide +kernel
example : eventFileIds [fileA, fileB] [("mass", (7/5, 29/20))] = [0] := by decide +kernel
example : fallbackBins [fileA, fileB, fileA] = some [binA, binB] := by decide +kernel
example : (filesInBin "amps".toList [] [("m", ["w1", "w2"])] ["w1", "w2", "w3"] [fileA, fileB] 1 [("mass", (7/5, 29/20))]).isSome = true := by decide +kernel
example : integralFileOf [binA, binB] binB 2 = some "/integral_binID-1_2.root".toList := by decide +kernel
/-- an event of the first file in the bin. -/
example : HoldsClosed fileA.boundaries (fun k => if k = "mass" then 7/5 else 1/2) ∧ Holds [("mass", (6/5, 8/5))] (fun k => if k = "mass" then 7/5 else 1/2) := by
  constructor
  · simp only [HoldsClosed, fileA, binA, List.forall_mem_cons]; norm_num; rw [if_neg (by decide)]; norm_num
  · simp only [Holds, List.forall_mem_cons]; norm_num

end Rpwa.MultiBin
