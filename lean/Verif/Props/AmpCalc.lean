import Verif.Lemmas.AmpCalc
/-! # C92: amplitude files are complete or unreadable -/
namespace Rpwa.AmpCalc

open Rpwa.Storage Rpwa.EventMomenta

/-- **C92, library function.** The amplitudes of the first `maxNmbEvents` events (of all events if it is not positive), one per event, in order,
if all of these events can be read. -/
theorem amplitudes_of_events (a : Amplitude) (hv : checkIndices a.topo.parts = true) (em : EventMeta) (tree : Tree)
    (ht : em.tree = some tree) (maxNmb : ℤ) (n : ℕ) (hn : (0 < maxNmb ∧ (n : ℤ) = min maxNmb tree.rows.length) ∨ (maxNmb ≤ 0 ∧ n = tree.rows.length))
    (hR : Readable a em (tree.rows.take n)) : AmplitudesOf a em.decayNames (tree.rows.take n) (calcAmplitudes (some a) em maxNmb) := by
  have : nmbUsed maxNmb tree.rows.length = n := by
    unfold nmbUsed
    rcases hn with ⟨h1, h2⟩ | ⟨h1, h2⟩
    · rw [if_pos h1]; omega
    · rw [if_neg (by omega), h2]
  rw [← this] at hR ⊢
  exact (calcAmplitudes_spec a hv em tree ht maxNmb).1 hR

/-- **C92, library function.** If one of these events cannot be read, or the particles are not those of the topology, there are no amplitudes at all. -/
theorem nothing_if_unreadable (a : Amplitude) (hv : checkIndices a.topo.parts = true) (em : EventMeta) (tree : Tree)
    (ht : em.tree = some tree) (hR : ¬ Readable a em tree.rows) (maxNmb : ℤ) (hm : maxNmb ≤ 0) : calcAmplitudes (some a) em maxNmb = [] := by
  refine (calcAmplitudes_spec a hv em tree ht maxNmb).2 ?_
  have : nmbUsed maxNmb tree.rows.length = tree.rows.length := by unfold nmbUsed; rw [if_neg (by omega)]
  rwa [this, List.take_length]

theorem put_self (d : Disk) (t : Task) (x : Option (List (Dbl × Dbl))) (y : Option AmpMeta) : put d t x y t.out = some ⟨t.wave.name, x, y⟩ := by
  unfold put; rw [Function.update_self]

theorem put_other (d : Disk) (t : Task) (x : Option (List (Dbl × Dbl))) (y : Option AmpMeta) {p : String} (h : p ≠ t.out) : put d t x y p = d p := by
  unfold put; rw [Function.update_of_ne h]

/-- **C92.** `calcAmplitude` succeeds iff everything that it needs is there and the output file does not exist. -/
theorem success_iff (w : World) (d : Disk) (t : Task) (hv : t.wave.Valid) :
    (calcAmplitude w d t).1 = true ↔ Possible w t ∧ d t.out = none := by
  rcases calc_cases w d t hv with ⟨h1, h2⟩ | ⟨-, -, -, h1, h2⟩ | ⟨h1, h2, _, _, _, _, -, -, -, -, h3⟩
  · rw [h2]
    refine ⟨fun h => (by cases h), ?_⟩
    rintro ⟨⟨h3, em, _, _, h4, -⟩, h5⟩
    rcases h1 with h1 | h1 | h1
    · rw [h1] at h3; cases h3
    · rw [h1] at h4; cases h4
    · exact absurd h5 h1
  · rw [h2]
    exact ⟨fun h => (by cases h), fun h => absurd h.1 h1⟩
  · rw [h3]
    exact ⟨fun _ => ⟨h2, h1⟩, fun _ => rfl⟩

/-- what a state of the disk during a run looks like. -/
theorem state_spec (w : World) (d : Disk) (t : Task) (hv : t.wave.Valid) (s : Disk) (hs : s ∈ (calcAmplitude w d t).2) :
    s = d ∨ (d t.out = none ∧ (∀ p, p ≠ t.out → s p = d p) ∧
      ∃ f, s t.out = some f ∧ ∀ b m, readAmplitudeFile f b = some m → b = t.wave.name ∧ Complete w t m) := by
  have unreadable : ∀ x, d t.out = none → (d t.out = none ∧ (∀ p, p ≠ t.out → put d t x none p = d p) ∧
      ∃ f, put d t x none t.out = some f ∧ ∀ b m, readAmplitudeFile f b = some m → b = t.wave.name ∧ Complete w t m) := by
    intro x hd
    refine ⟨hd, fun p hp => put_other d t x none hp, _, put_self d t x none, fun b m hm => ?_⟩
    unfold readAmplitudeFile at hm
    dsimp only at hm
    split at hm <;> cases hm
  rcases calc_cases w d t hv with ⟨h1, h2⟩ | ⟨-, -, hd, h1, h2⟩ | ⟨hd, h2, em, tree, a, amps, h3, h4, h5, h6, h7⟩
  · rw [h2] at hs
    exact .inl (List.mem_singleton.1 hs)
  · rw [h2] at hs
    rcases List.mem_cons.1 hs with rfl | hs
    · exact .inl rfl
    · rw [List.mem_singleton.1 hs]
      exact .inr (unreadable none hd)
  · rw [h7] at hs
    rcases List.mem_append.1 hs with hs | hs
    · rcases List.mem_append.1 hs with hs | hs
      · rcases List.mem_cons.1 hs with rfl | hs
        · exact .inl rfl
        · rw [List.mem_singleton.1 hs]
          exact .inr (unreadable none hd)
      · obtain ⟨k, -, rfl⟩ := List.mem_map.1 hs
        exact .inr (unreadable _ hd)
    · rw [List.mem_singleton.1 hs]
      refine .inr ⟨hd, fun p hp => put_other d t _ _ hp, _, put_self d t _ _, fun b m hm => ?_⟩
      unfold readAmplitudeFile at hm
      dsimp only at hm
      by_cases hb : t.wave.name = b
      · rw [if_pos hb] at hm
        cases Option.some.inj hm
        exact ⟨hb.symm, em, tree, a, amps, h3, h4, h5, rfl, h6, rfl, rfl, rfl, written_hash w t em amps⟩
      · rw [if_neg hb] at hm; cases hm

theorem states_ne_nil (w : World) (d : Disk) (t : Task) (hv : t.wave.Valid) : (calcAmplitude w d t).2 ≠ [] := by
  rcases calc_cases w d t hv with ⟨h1, h2⟩ | ⟨-, -, -, h1, h2⟩ | ⟨h1, h2, _, _, _, _, -, -, -, -, h3⟩
  · rw [h2]; simp
  · rw [h2]; simp
  · rw [h3]; simp

theorem after_mem (w : World) (d : Disk) (t : Task) (hv : t.wave.Valid) : after w d t ∈ (calcAmplitude w d t).2 := by
  unfold after
  rw [List.getLast?_eq_getLast_of_ne_nil (states_ne_nil w d t hv)]
  exact List.getLast_mem _

/-- **C92.** After success the file is complete: one amplitude per event, in the order of the events, with the metadata of the event file, the key
file and a valid hash. -/
theorem success_complete (w : World) (d : Disk) (t : Task) (hv : t.wave.Valid) (h : (calcAmplitude w d t).1 = true) :
    ∃ f m, after w d t t.out = some f ∧ readAmplitudeFile f t.wave.name = some m ∧ Complete w t m := by
  rcases calc_cases w d t hv with ⟨-, h2⟩ | ⟨-, -, -, -, h2⟩ | ⟨hd, h2, em, tree, a, amps, h3, h4, h5, h6, h7⟩
  · rw [h2] at h; cases h
  · rw [h2] at h; cases h
  · have h8 : after w d t = put d t (some amps) (some (written w t em amps)) := by
      unfold after; rw [h7, List.getLast?_concat]; rfl
    refine ⟨_, written w t em amps, by rw [h8]; exact put_self _ _ _ _, ?_, em, tree, a, amps, h3, h4, h5, rfl, h6, rfl, rfl, rfl, written_hash w t em amps⟩
    unfold readAmplitudeFile
    rw [if_pos rfl]
    rfl

/-- the invariant: every file that can be read is complete and belongs to one of the tasks. -/
def Good (w : World) (ts : List Task) (d : Disk) : Prop :=
  ∀ p f b m, d p = some f → readAmplitudeFile f b = some m → ∃ t ∈ ts, t.out = p ∧ b = t.wave.name ∧ Complete w t m

theorem good_state {w : World} {ts : List Task} {d : Disk} (hg : Good w ts d) (t : Task) (ht : t ∈ ts) (hv : t.wave.Valid) (s : Disk)
    (hs : s ∈ (calcAmplitude w d t).2) : Good w ts s := by
  rcases state_spec w d t hv s hs with rfl | ⟨-, h1, f, h2, h3⟩
  · exact hg
  · intro p f' b m hp hm
    by_cases hpt : p = t.out
    · subst hpt
      rw [h2] at hp
      cases Option.some.inj hp
      obtain ⟨h4, h5⟩ := h3 b m hm
      exact ⟨t, ht, rfl, h4, h5⟩
    · rw [h1 p hpt] at hp
      exact hg p f' b m hp hm

theorem act_run_mem (w : World) (d : Disk) (a : Action) (t : Task) (h : a.task? = some t) (hv : t.wave.Valid) :
    act w d a ∈ (calcAmplitude w d t).2 := by
  cases a with
  | run t' => cases Option.some.inj h; exact after_mem w d t hv
  | crash t' n =>
    cases Option.some.inj h
    show ((calcAmplitude w d t).2[n]?).getD (after w d t) ∈ _
    cases h1 : (calcAmplitude w d t).2[n]? with
    | none => exact after_mem w d t hv
    | some s => exact List.mem_of_getElem? h1
  | delete p => cases h

/-- **C92, every history.** Whatever was calculated, interrupted at any point, repeated or deleted: a file that can be read as amplitude file is
complete and right for a task with this file, wave and event file. -/
theorem never_partial (w : World) (d : Disk) (hd : ∀ p, d p = none) (as : List Action) (ts : List Task)
    (hts : ∀ a ∈ as, ∀ t, a.task? = some t → t ∈ ts) (hv : ∀ t ∈ ts, t.wave.Valid) (p b : String) (f : DiskFile) (m : AmpMeta)
    (hf : history w d as p = some f) (hm : readAmplitudeFile f b = some m) : ∃ t ∈ ts, t.out = p ∧ b = t.wave.name ∧ Complete w t m := by
  have key : ∀ (as : List Action) (d : Disk), (∀ a ∈ as, ∀ t, a.task? = some t → t ∈ ts) → Good w ts d → Good w ts (history w d as) := by
    intro as
    induction as with
    | nil => intro d _ hg; exact hg
    | cons a as ih =>
      intro d hts hg
      refine ih (act w d a) (fun x hx => hts x (List.mem_cons_of_mem _ hx)) ?_
      cases hta : a.task? with
      | some t =>
        have ht := hts a List.mem_cons_self t hta
        exact good_state hg t ht (hv t ht) _ (act_run_mem w d a t hta (hv t ht))
      | none =>
        cases a with
        | run t => cases hta
        | crash t n => cases hta
        | delete q =>
          intro p f b m hp hm
          by_cases hpq : p = q
          · subst hpq
            have : act w d (.delete p) p = none := by show Function.update d p none p = none; rw [Function.update_self]
            rw [this] at hp; cases hp
          · have : act w d (.delete q) p = d p := by show Function.update d q none p = d p; rw [Function.update_of_ne hpq]
            rw [this] at hp
            exact hg p f b m hp hm
  exact key as d hts (fun p f b m hp _ => by rw [hd p] at hp; cases hp) p f b m hf hm

/-- **C92, every history.** With different output files for different tasks the file of a task, if it can be read, has the amplitudes of this task. -/
theorem never_partial_of_task (w : World) (d : Disk) (hd : ∀ p, d p = none) (as : List Action) (ts : List Task)
    (hts : ∀ a ∈ as, ∀ t, a.task? = some t → t ∈ ts) (hv : ∀ t ∈ ts, t.wave.Valid)
    (hdist : ∀ t ∈ ts, ∀ t' ∈ ts, t.out = t'.out → t = t') (t : Task) (ht : t ∈ ts) (b : String) (f : DiskFile) (m : AmpMeta)
    (hf : history w d as t.out = some f) (hm : readAmplitudeFile f b = some m) : b = t.wave.name ∧ Complete w t m := by
  obtain ⟨t', ht', h1, h2, h3⟩ := never_partial w d hd as ts hts hv t.out b f m hf hm
  cases hdist t' ht' t ht h1
  exact ⟨h2, h3⟩

/-- an existing file is not touched. -/
theorem act_keeps (w : World) (d : Disk) (a : Action) (ha : ∀ t, a.task? = some t → t.wave.Valid) (p : String) (f : DiskFile)
    (hp : d p = some f) (hdel : a ≠ .delete p) : act w d a p = some f := by
  cases hta : a.task? with
  | some t =>
    rcases state_spec w d t (ha t hta) _ (act_run_mem w d a t hta (ha t hta)) with h | ⟨h1, h2, -⟩
    · rw [h]; exact hp
    · rw [h2 p ?_]
      · exact hp
      · rintro rfl; rw [hp] at h1; cases h1
  | none =>
    cases a with
    | run t => cases hta
    | crash t n => cases hta
    | delete q =>
      have hq : p ≠ q := by rintro rfl; exact hdel rfl
      show Function.update d q none p = _
      rw [Function.update_of_ne hq]
      exact hp

/-- **C92, every history.** No run changes an existing file, whatever it contains. -/
theorem file_kept (w : World) (as : List Action) (hv : ∀ a ∈ as, ∀ t, a.task? = some t → t.wave.Valid) (p : String)
    (hdel : .delete p ∉ as) (d : Disk) (f : DiskFile) (hp : d p = some f) : history w d as p = some f := by
  induction as generalizing d with
  | nil => exact hp
  | cons a as ih =>
    refine ih (fun x hx => hv x (List.mem_cons_of_mem _ hx)) (fun h => hdel (List.mem_cons_of_mem _ h)) (act w d a) ?_
    exact act_keeps w d a (hv a List.mem_cons_self) p f hp fun h => hdel (h ▸ List.mem_cons_self)

/-- **C92, finding.** A run that is stopped after it has opened its output file and before the metadata is written leaves a file that cannot be
read, and every further run for this file fails, until somebody deletes the file. -/
theorem crash_blocks (w : World) (d : Disk) (t : Task) (hv : t.wave.Valid) (n : ℕ) (hpos : 0 < n)
    (hP : Possible w t) (hn : n + 1 < (calcAmplitude w d t).2.length)
    (as : List Action) (hvs : ∀ a ∈ as, ∀ t, a.task? = some t → t.wave.Valid) (hdel : .delete t.out ∉ as) :
    (∃ f, history w (act w d (.crash t n)) as t.out = some f ∧ ∀ b, readAmplitudeFile f b = none) ∧
    ∀ t' : Task, t'.out = t.out → (calcAmplitude w (history w (act w d (.crash t n)) as) t').1 = false := by
  have hex : ∃ f, act w d (.crash t n) t.out = some f ∧ ∀ b, readAmplitudeFile f b = none := by
    rcases calc_cases w d t hv with ⟨-, h2⟩ | ⟨-, -, -, h1, -⟩ | ⟨-, h2, em, tree, a, amps, h3, h4, h5, h6, h7⟩
    · rw [h2] at hn; simp at hn
    · exact absurd hP h1
    · have hact : act w d (.crash t n) = ((calcAmplitude w d t).2[n]?).getD (after w d t) := rfl
      rw [h7] at hn hact
      dsimp only at hn hact
      have hlt : n < ([d, put d t none none] ++ savedStates d t amps).length := by
        rw [List.length_append, List.length_singleton] at hn; omega
      rw [List.getElem?_append_left hlt] at hact
      have unr : ∀ x b, readAmplitudeFile ⟨t.wave.name, x, none⟩ b = none := by
        intro x b
        unfold readAmplitudeFile
        dsimp only
        split <;> rfl
      rcases Nat.lt_or_ge n 2 with h8 | h8
      · have : n = 1 := by omega
        subst this
        have h9 : act w d (.crash t 1) = put d t none none := hact
        exact ⟨_, by rw [h9]; exact put_self _ _ _ _, unr none⟩
      · rw [List.getElem?_append_right h8] at hact
        have h10 : n - 2 < (savedStates d t amps).length := by
          rw [List.length_append] at hlt
          have : [d, put d t none none].length = 2 := rfl
          omega
        have h11 : (savedStates d t amps)[n - 2]? = some (put d t (some (amps.take (n - 2))) none) := by
          unfold savedStates at h10 ⊢
          rw [List.length_map, List.length_range] at h10
          rw [List.getElem?_map, List.getElem?_range h10]
          rfl
        have h12 : act w d (.crash t n) = put d t (some (amps.take (n - 2))) none := by
          rw [hact]
          show ((savedStates d t amps)[n - 2]?).getD _ = _
          rw [h11]; rfl
        exact ⟨_, by rw [h12]; exact put_self _ _ _ _, unr _⟩
  obtain ⟨f, h1, h2⟩ := hex
  have h3 := file_kept w as hvs t.out hdel _ f h1
  refine ⟨⟨f, h3, h2⟩, fun t' ht' => ?_⟩
  unfold calcAmplitude
  by_cases h0 : (!w.rootpwa) = true
  · rw [if_pos h0]
  · rw [if_neg h0]
    cases w.events t'.input with
    | none => rfl
    | some em =>
      dsimp only
      rw [ht', h3]

/-- **C92.** After the leftover file was deleted the calculation can be repeated. -/
theorem delete_and_retry (w : World) (d : Disk) (t : Task) (hv : t.wave.Valid) (hP : Possible w t) :
    ∃ f m, history w d [.delete t.out, .run t] t.out = some f ∧ readAmplitudeFile f t.wave.name = some m ∧ Complete w t m := by
  refine success_complete w (Function.update d t.out none) t hv ?_
  rw [success_iff w _ t hv]
  exact ⟨hP, Function.update_self _ _ _⟩

/-- **C92, finding.** For an event file without events (or one that cannot be read completely) the calculation never succeeds, but leaves a file. -/
theorem impossible_leaves_file (w : World) (d : Disk) (t : Task) (hv : t.wave.Valid) (hr : w.rootpwa = true) (em : EventMeta)
    (he : w.events t.input = some em) (hP : ¬ Possible w t) (hd : d t.out = none) :
    (calcAmplitude w d t).1 = false ∧ ∃ f, after w d t t.out = some f ∧ ∀ b, readAmplitudeFile f b = none := by
  rcases calc_cases w d t hv with ⟨h1, h2⟩ | ⟨-, -, -, h1, h2⟩ | ⟨-, h2, -⟩
  · rcases h1 with h1 | h1 | h1
    · rw [hr] at h1; cases h1
    · rw [he] at h1; cases h1
    · exact absurd hd h1
  · refine ⟨by rw [h2], ⟨t.wave.name, none, none⟩, ?_, fun b => ?_⟩
    · unfold after; rw [h2]; exact put_self _ _ _ _
    · unfold readAmplitudeFile; dsimp only; split <;> rfl
  · exact absurd h2 hP

/-! ### the script -/

theorem script_other (w : World) : ∀ (ts : List Task) (d : Disk), (∀ t ∈ ts, t.wave.Valid) → ∀ p, (∀ t ∈ ts, t.out ≠ p) → script w d ts p = d p
  | [], _, _, _, _ => rfl
  | t :: ts, d, hv, p, hp => by
    show script w (after w d t) ts p = _
    rw [script_other w ts _ (fun x hx => hv x (List.mem_cons_of_mem _ hx)) p fun x hx => hp x (List.mem_cons_of_mem _ hx)]
    rcases state_spec w d t (hv t List.mem_cons_self) _ (after_mem w d t (hv t List.mem_cons_self)) with h | ⟨-, h2, -⟩
    · rw [h]
    · exact h2 p (hp t List.mem_cons_self).symm

/-- **C92, script.** One run of the script writes the complete file of every task that is possible and whose file does not exist; failures of other
tasks do not matter. -/
theorem script_complete (w : World) (ts : List Task) (hv : ∀ t ∈ ts, t.wave.Valid) (hdist : (ts.map Task.out).Nodup) (d : Disk)
    (t : Task) (ht : t ∈ ts) (hP : Possible w t) (hd : d t.out = none) :
    ∃ f m, script w d ts t.out = some f ∧ readAmplitudeFile f t.wave.name = some m ∧ Complete w t m := by
  induction ts generalizing d with
  | nil => simp at ht
  | cons x ts ih =>
    rw [List.map_cons, List.nodup_cons] at hdist
    have hvs : ∀ y ∈ ts, y.wave.Valid := fun y hy => hv y (List.mem_cons_of_mem _ hy)
    show ∃ f m, script w (after w d x) ts t.out = some f ∧ _
    by_cases htx : t = x
    · subst htx
      rw [script_other w ts _ hvs t.out fun y hy h => hdist.1 (h ▸ List.mem_map_of_mem hy)]
      exact success_complete w d t (hv t ht) ((success_iff w d t (hv t ht)).2 ⟨hP, hd⟩)
    · have ht' : t ∈ ts := by
        rcases List.mem_cons.1 ht with h | h
        · exact absurd h htx
        · exact h
      have hne : t.out ≠ x.out := fun h => hdist.1 (h ▸ List.mem_map_of_mem ht')
      refine ih hvs hdist.2 _ ht' ?_
      rcases state_spec w d x (hv x List.mem_cons_self) _ (after_mem w d x (hv x List.mem_cons_self)) with h | ⟨-, h2, -⟩
      · rw [h]; exact hd
      · rw [h2 _ hne]; exact hd

/-- a task that does nothing. -/
theorem after_idle (w : World) (d : Disk) (t : Task) (h : w.rootpwa = false ∨ w.events t.input = none ∨ d t.out ≠ none) : after w d t = d := by
  unfold after calcAmplitude
  by_cases h0 : w.rootpwa = true
  · rw [if_neg (by simp [h0])]
    cases h1 : w.events t.input with
    | none => rfl
    | some em =>
      dsimp only
      cases h2 : d t.out with
      | some f => rfl
      | none =>
        rcases h with h | h | h
        · rw [h0] at h; cases h
        · rw [h1] at h; cases h
        · exact absurd h2 h
  · rw [if_pos (by simpa using h0)]; rfl

theorem idle_after (w : World) (d : Disk) (t : Task) (hv : t.wave.Valid) :
    w.rootpwa = false ∨ w.events t.input = none ∨ after w d t t.out ≠ none := by
  rcases calc_cases w d t hv with ⟨h1, h2⟩ | ⟨-, -, -, h1, h2⟩ | ⟨hd, h2, em, tree, a, amps, h3, h4, h5, h6, h7⟩
  · have : after w d t = d := by unfold after; rw [h2]; rfl
    rw [this]; exact h1
  · right; right
    have : after w d t = put d t none none := by unfold after; rw [h2]; rfl
    rw [this, put_self]; simp
  · right; right
    have : after w d t = put d t (some amps) (some (written w t em amps)) := by unfold after; rw [h7, List.getLast?_concat]; rfl
    rw [this, put_self]; simp

theorem after_keeps (w : World) (d : Disk) (t : Task) (hv : t.wave.Valid) (p : String) (h : d p ≠ none) : after w d t p ≠ none := by
  obtain ⟨f, hf⟩ := Option.ne_none_iff_exists'.1 h
  have := act_keeps w d (.run t) (fun x hx => by cases Option.some.inj hx; exact hv) p f hf (by intro h; cases h)
  have h2 : after w d t p = some f := this
  rw [h2]; simp

/-- **C92, script.** Running the script again changes nothing: what exists is kept, what could not be calculated is not calculated. -/
theorem script_twice (w : World) (ts : List Task) (hv : ∀ t ∈ ts, t.wave.Valid) (d : Disk) : script w (script w d ts) ts = script w d ts := by
  have idle : ∀ (ts : List Task) (d : Disk), (∀ t ∈ ts, w.rootpwa = false ∨ w.events t.input = none ∨ d t.out ≠ none) → script w d ts = d := by
    intro ts
    induction ts with
    | nil => intro d _; rfl
    | cons t ts ih =>
      intro d h
      show script w (after w d t) ts = d
      rw [after_idle w d t (h t List.mem_cons_self)]
      exact ih d fun x hx => h x (List.mem_cons_of_mem _ hx)
  have mono : ∀ (ts : List Task) (d : Disk), (∀ t ∈ ts, t.wave.Valid) → ∀ p, d p ≠ none → script w d ts p ≠ none := by
    intro ts
    induction ts with
    | nil => intro d _ p h; exact h
    | cons t ts ih =>
      intro d hv p h
      exact ih (after w d t) (fun x hx => hv x (List.mem_cons_of_mem _ hx)) p (after_keeps w d t (hv t List.mem_cons_self) p h)
  have done : ∀ (ts : List Task) (d : Disk), (∀ t ∈ ts, t.wave.Valid) →
      ∀ t ∈ ts, w.rootpwa = false ∨ w.events t.input = none ∨ script w d ts t.out ≠ none := by
    intro ts
    induction ts with
    | nil => intro d _ t h; simp at h
    | cons x ts ih =>
      intro d hv t ht
      rcases List.mem_cons.1 ht with rfl | ht
      · rcases idle_after w d t (hv t List.mem_cons_self) with h | h | h
        · exact .inl h
        · exact .inr (.inl h)
        · exact .inr (.inr (mono ts _ (fun x hx => hv x (List.mem_cons_of_mem _ hx)) _ h))
      · exact ih (after w d x) (fun x hx => hv x (List.mem_cons_of_mem _ hx)) t ht
  exact idle ts _ (done ts d hv)

/-! ### selection of waves and files -/

/-- **C92, script.** Which waves are calculated: those of the list, or the one with the index, or all of them; also a list without waves selects all
waves, and a negative index counts from the end. -/
theorem waves_selected (list : Option (List String)) (idx : ℤ) (all l : List String) :
    selectWaves list idx all = .ok l ↔
      (idx = -1 ∧ l ≠ [] ∧ list = some l) ∨ (idx = -1 ∧ (list = none ∨ list = some []) ∧ l = all) ∨
      (list = none ∧ idx ≠ -1 ∧ ∃ x, l = [x] ∧ ((0 ≤ idx ∧ all[idx.toNat]? = some x) ∨ (idx < 0 ∧ -idx ≤ all.length ∧ all[(idx + all.length).toNat]? = some x))) := by
  unfold selectWaves
  by_cases hi : idx = -1
  · subst hi
    rw [if_neg (by simp), if_neg (by simp)]
    cases list with
    | none => simp [eq_comm]
    | some x =>
      cases x with
      | nil => simp [eq_comm]; 
      | cons a x =>
        simp
        rintro rfl
        simp
  · cases list with
    | some x =>
      rw [if_pos ⟨rfl, hi⟩]
      simp [hi]
    | none =>
      rw [if_neg (by simp), if_pos hi]
      by_cases h1 : idx < all.length
      · rw [if_neg (not_not.2 h1)]
        by_cases h2 : idx < 0
        · rw [if_pos h2]
          by_cases h3 : idx + all.length < 0
          · have hl : all.length = (all.length : ℕ) := rfl
            have : (idx + all.length).toNat = 0 := by omega
            have hno : ∀ o : Option String, (match o with
                | none => Outcome.terminate
                | some x => if idx + all.length < 0 then Outcome.terminate else Outcome.ok [x]) = Outcome.terminate := by
              intro o; cases o with
              | none => rfl
              | some x => dsimp only; rw [if_pos h3]
            refine Iff.trans (iff_of_eq (congrArg (· = Outcome.ok l) (hno _))) ?_
            constructor
            · intro h; cases h
            · rintro (⟨h, -⟩ | ⟨h, -⟩ | ⟨-, -, x, -, (⟨h, -⟩ | ⟨-, h, -⟩)⟩)
              · exact absurd h hi
              · exact absurd h hi
              · omega
              · omega
          · have h4 : (idx + all.length).toNat < all.length := by omega
            rw [List.getElem?_eq_getElem h4]
            dsimp only
            rw [if_neg h3]
            constructor
            · intro h; cases h
              exact .inr (.inr ⟨rfl, hi, _, rfl, .inr ⟨h2, by omega, rfl⟩⟩)
            · rintro (⟨h, -⟩ | ⟨h, -⟩ | ⟨-, -, x, rfl, (⟨h, -⟩ | ⟨-, -, h⟩)⟩)
              · exact absurd h hi
              · exact absurd h hi
              · omega
              · rw [Option.some.inj h]
        · rw [if_neg h2]
          have h4 : idx.toNat < all.length := by omega
          rw [List.getElem?_eq_getElem h4]
          dsimp only
          rw [if_neg (by omega)]
          constructor
          · intro h; cases h
            exact .inr (.inr ⟨rfl, hi, _, rfl, .inl ⟨by omega, rfl⟩⟩)
          · rintro (⟨h, -⟩ | ⟨h, -⟩ | ⟨-, -, x, rfl, (⟨-, h⟩ | ⟨h, -⟩)⟩)
            · exact absurd h hi
            · exact absurd h hi
            · rw [Option.some.inj h]
            · omega
      · rw [if_pos h1]
        constructor
        · intro h; cases h
        · rintro (⟨h, -⟩ | ⟨h, -⟩ | ⟨-, -, x, -, (⟨-, h⟩ | ⟨h, -⟩)⟩)
          · exact absurd h hi
          · exact absurd h hi
          · rw [List.getElem?_eq_none (by omega)] at h; cases h
          · omega

/-- **C92, script.** Without a file id all pairs of all waves and types are calculated. -/
theorem all_pairs {α : Type} (fileId : ℤ) (h : fileId < 0) (pss : List (List α)) : tasksDone fileId pss = pss.flatten := by
  induction pss with
  | nil => rfl
  | cons ps pss ih =>
    unfold tasksDone selectPairs
    rw [if_neg (by omega)]
    dsimp only
    rw [ih]; rfl

/-- **C92, script.** With a file id one pair for each wave and type is calculated, up to the first one that has fewer files. -/
theorem pairs_of_id {α : Type} (k : ℕ) (pss : List (List α)) :
    tasksDone (k : ℤ) pss = (pss.takeWhile fun ps => decide (k < ps.length)).filterMap fun ps => ps[k]? := by
  induction pss with
  | nil => rfl
  | cons ps pss ih =>
    unfold tasksDone selectPairs
    rw [if_pos (by omega)]
    by_cases h : k < ps.length
    · rw [if_neg (by omega), List.takeWhile_cons_of_pos (by simpa using h)]
      dsimp only
      rw [ih, List.filterMap_cons, List.getElem?_eq_getElem h, Int.toNat_natCast, List.drop_eq_getElem_cons h]
      rfl
    · rw [if_pos (by omega), List.takeWhile_cons_of_neg (by simpa using h)]
      rfl

end Rpwa.AmpCalc
