import Verif.Spec.DecayGraph
import Mathlib.Data.List.Nodup
import Mathlib.Tactic.Common
/-! # Depth-first search (C70) -/
namespace Rpwa.Dec

/-- the depth-first search as a relation, without a number of steps. -/
inductive Runs (succ : ℕ → List ℕ) : List ℕ → List ℕ → List ℕ → Prop
  | done (seen : List ℕ) : Runs succ [] seen seen
  | skip (u : ℕ) (todo seen R : List ℕ) : u ∈ seen → Runs succ todo seen R → Runs succ (u :: todo) seen R
  | visit (u : ℕ) (todo seen R : List ℕ) : u ∉ seen → Runs succ (succ u ++ todo) (seen ++ [u]) R → Runs succ (u :: todo) seen R

theorem Runs.det {succ : ℕ → List ℕ} {todo seen R R' : List ℕ} (h : Runs succ todo seen R) (h' : Runs succ todo seen R') : R = R' := by
  induction h generalizing R' with
  | done seen => cases h'; rfl
  | skip u todo seen R hu _ ih =>
    cases h' with
    | skip _ _ _ _ _ h2 => exact ih h2
    | visit _ _ _ _ hn _ => exact absurd hu hn
  | visit u todo seen R hu _ ih =>
    cases h' with
    | skip _ _ _ _ hn _ => exact absurd hn hu
    | visit _ _ _ _ _ h2 => exact ih h2

/-- edges that start at nodes not seen yet. -/
def pending (E : List Edge) (seen : List ℕ) : ℕ := (E.filter fun e => decide (e.src ∉ seen)).length

theorem pending_visit (E : List Edge) (seen : List ℕ) (u : ℕ) (hu : u ∉ seen) :
    pending E (seen ++ [u]) + (E.filter fun e => e.src = u).length = pending E seen := by
  unfold pending
  induction E with
  | nil => rfl
  | cons e E ih =>
    simp only [List.filter_cons]
    by_cases h1 : e.src = u
    · have h2 : e.src ∉ seen := h1 ▸ hu
      have h3 : ¬ e.src ∉ seen ++ [u] := by simp [h1]
      simp only [h1, h2, h3, decide_true, decide_false, hu] at ih ⊢
      simp at ih ⊢
      omega
    · by_cases h2 : e.src ∈ seen
      · simp [h1, h2] at ih ⊢
        omega
      · simp [h1, h2] at ih ⊢
        omega

theorem runs_go (g : Graph) : ∀ (k : ℕ) (todo seen : List ℕ), todo.length + pending g.edges seen ≤ k → Runs g.succ todo seen (dfsGo g.succ k todo seen)
  | 0, [], seen, _ => .done seen
  | 0, _ :: _, _, h => by simp at h
  | _ + 1, [], seen, _ => .done seen
  | k + 1, u :: todo, seen, h => by
    unfold dfsGo
    by_cases hu : u ∈ seen
    · rw [if_pos hu]
      exact .skip u todo seen _ hu (runs_go g k todo seen (by simp at h; omega))
    · rw [if_neg hu]
      refine .visit u todo seen _ hu (runs_go g k _ _ ?_)
      have := pending_visit g.edges seen u hu
      simp only [List.length_append, List.length_cons] at h ⊢
      have h2 : (g.succ u).length = (g.edges.filter fun e => e.src = u).length := by unfold Graph.succ; simp
      omega

/-- **the number of steps is no restriction.** -/
theorem dfs_runs (g : Graph) (start : ℕ) : Runs g.succ [start] [] (g.dfs start) := by
  refine runs_go g _ _ _ ?_
  unfold pending
  have := List.length_filter_le (fun e : Edge => decide (e.src ∉ ([] : List ℕ))) g.edges
  simp only [List.length_singleton]
  omega

theorem Runs.nodup {succ : ℕ → List ℕ} {todo seen R : List ℕ} (h : Runs succ todo seen R) (hn : seen.Nodup) : R.Nodup := by
  induction h with
  | done seen => exact hn
  | skip _ _ _ _ _ _ ih => exact ih hn
  | visit u todo seen R hu _ ih => exact ih (List.nodup_append.2 ⟨hn, by simp, by
      intro a ha b hb
      rw [List.mem_singleton.1 hb]
      exact fun hc => hu (hc ▸ ha)⟩)

theorem Runs.prefix {succ : ℕ → List ℕ} {todo seen R : List ℕ} (h : Runs succ todo seen R) : ∃ S, R = seen ++ S := by
  induction h with
  | done seen => exact ⟨[], by simp⟩
  | skip _ _ _ _ _ _ ih => exact ih
  | visit u todo seen R _ _ ih =>
    obtain ⟨S, hS⟩ := ih
    exact ⟨u :: S, by simp [hS]⟩

theorem Runs.todo_mem {succ : ℕ → List ℕ} {todo seen R : List ℕ} (h : Runs succ todo seen R) : ∀ u ∈ todo, u ∈ R := by
  induction h with
  | done seen => intro u hu; cases hu
  | skip u todo seen R hu h ih =>
    intro w hw
    rcases List.mem_cons.1 hw with rfl | hw
    · obtain ⟨S, rfl⟩ := h.prefix
      exact List.mem_append_left _ hu
    · exact ih w hw
  | visit u todo seen R hu h ih =>
    intro w hw
    rcases List.mem_cons.1 hw with rfl | hw
    · obtain ⟨S, rfl⟩ := h.prefix
      simp
    · exact ih w (List.mem_append_right _ hw)

/-- what is found is closed under going along edges. -/
theorem Runs.closed {succ : ℕ → List ℕ} {todo seen R : List ℕ} (h : Runs succ todo seen R) : ∀ u ∈ R, u ∈ seen ∨ ∀ w ∈ succ u, w ∈ R := by
  induction h with
  | done seen => exact fun u hu => .inl hu
  | skip _ _ _ _ _ _ ih => exact ih
  | visit u todo seen R hu h ih =>
    intro w hw
    rcases ih w hw with hc | hc
    · rcases List.mem_append.1 hc with hc | hc
      · exact .inl hc
      · rw [List.mem_singleton.1 hc]
        exact .inr fun x hx => h.todo_mem x (List.mem_append_left _ hx)
    · exact .inr hc

/-- every node that is found comes after a node with an edge to it. -/
theorem Runs.order {succ : ℕ → List ℕ} {todo seen R : List ℕ} (h : Runs succ todo seen R) : ∀ A w B, R = A ++ w :: B → w ∈ seen ∨ w ∈ todo ∨ ∃ y ∈ A, w ∈ succ y := by
  induction h with
  | done seen =>
    intro A w B hR
    left
    simp [hR]
  | skip u todo seen R _ _ ih =>
    intro A w B hR
    rcases ih A w B hR with h | h | h
    · exact .inl h
    · exact .inr (.inl (List.mem_cons_of_mem _ h))
    · exact .inr (.inr h)
  | visit u todo seen R hu h ih =>
    intro A w B hR
    by_cases hw : w ∈ seen ++ [u]
    · rcases List.mem_append.1 hw with hw | hw
      · exact .inl hw
      · rw [List.mem_singleton.1 hw]
        exact .inr (.inl List.mem_cons_self)
    · rcases ih A w B hR with hc | hc | hc
      · exact absurd hc hw
      · rcases List.mem_append.1 hc with hc | hc
        · refine .inr (.inr ⟨u, ?_, hc⟩)
          obtain ⟨S, hS⟩ := h.prefix
          rw [hS] at hR
          rcases List.append_eq_append_iff.1 hR with ⟨a, ha, _⟩ | ⟨c, hc1, hc2⟩
          · rw [ha]; simp
          · cases c with
            | nil =>
              rw [List.append_nil] at hc1
              rw [← hc1]
              simp
            | cons x c =>
              exfalso
              simp at hc2
              obtain ⟨rfl, _⟩ := hc2
              apply hw
              rw [hc1]
              simp
        · exact .inr (.inl (List.mem_cons_of_mem _ hc))
      · exact .inr (.inr hc)

/-- reachable along edges. -/
inductive Reach (succ : ℕ → List ℕ) (s : ℕ) : ℕ → Prop
  | refl : Reach succ s s
  | step (u w : ℕ) : Reach succ s u → w ∈ succ u → Reach succ s w

theorem Runs.reach {succ : ℕ → List ℕ} {todo seen R : List ℕ} (h : Runs succ todo seen R) : ∀ w ∈ R, w ∈ seen ∨ ∃ s ∈ todo, Reach succ s w := by
  induction h with
  | done seen => exact fun u hu => .inl hu
  | skip u todo seen R _ _ ih =>
    intro w hw
    rcases ih w hw with h | ⟨s, hs, h⟩
    · exact .inl h
    · exact .inr ⟨s, List.mem_cons_of_mem _ hs, h⟩
  | visit u todo seen R hu h ih =>
    intro w hw
    rcases ih w hw with h | ⟨s, hs, h⟩
    · rcases List.mem_append.1 h with h | h
      · exact .inl h
      · rw [List.mem_singleton.1 h]
        exact .inr ⟨u, List.mem_cons_self, .refl⟩
    · rcases List.mem_append.1 hs with hs | hs
      · refine .inr ⟨u, List.mem_cons_self, ?_⟩
        clear ih hw
        induction h with
        | refl => exact .step u s .refl hs
        | step a b _ hb ih => exact .step a b ih hb
      · exact .inr ⟨s, List.mem_cons_of_mem _ hs, h⟩

/-- **C70, depth-first search.** For every graph: the nodes found are exactly those that can be reached, each once, the start first and every other node after a node with
an edge to it. -/
theorem dfs_spec (g : Graph) (start : ℕ) : (g.dfs start).Nodup ∧ (∀ w, w ∈ g.dfs start ↔ Reach g.succ start w) ∧
    (∃ S, g.dfs start = start :: S) ∧ ∀ A w B, g.dfs start = A ++ w :: B → w ≠ start → ∃ y ∈ A, w ∈ g.succ y := by
  have h := dfs_runs g start
  refine ⟨h.nodup List.nodup_nil, fun w => ⟨fun hw => ?_, fun hw => ?_⟩, ?_, fun A w B hR hw => ?_⟩
  · rcases h.reach w hw with hc | ⟨s, hs, h2⟩
    · cases hc
    · rw [List.mem_singleton.1 hs] at h2
      exact h2
  · induction hw with
    | refl => exact h.todo_mem _ List.mem_cons_self
    | step a b _ hb ih =>
      rcases h.closed a ih with hc | hc
      · cases hc
      · exact hc b hb
  · cases h with
    | skip _ _ _ _ hc _ => cases hc
    | visit _ _ _ _ _ h2 =>
      obtain ⟨S, hS⟩ := h2.prefix
      exact ⟨S, by simpa using hS⟩
  · rcases h.order A w B hR with hc | hc | hc
    · cases hc
    · exact absurd (List.mem_singleton.1 hc) hw
    · exact hc

/-- **on a tree** the order is the depth-first order of the tree: `f` gives the node in which a particle ends. -/
theorem runs_tree {succ : ℕ → List ℕ} {f : ℕ → ℕ} : ∀ (T : Tree) (todo seen R : List ℕ),
    (∀ S ∈ T.subs, succ (f S.top) = match S with | .leaf _ => [] | .node _ _ l r => [f l.top, f r.top]) →
    (seen ++ T.parts.map f).Nodup → Runs succ todo (seen ++ T.parts.map f) R → Runs succ (f T.top :: todo) seen R
  | .leaf p, todo, seen, R, hs, hn, h => by
    refine .visit _ _ _ _ (fun hc => ?_) ?_
    · exact (List.disjoint_of_nodup_append hn) hc (by simp [Tree.parts, Tree.top])
    · rw [hs (.leaf p) (by simp [Tree.subs])]
      simpa [Tree.parts, Tree.top] using h
  | .node v p l r, todo, seen, R, hs, hn, h => by
    refine .visit _ _ _ _ (fun hc => ?_) ?_
    · exact (List.disjoint_of_nodup_append hn) hc (by simp [Tree.parts, Tree.top])
    · rw [hs (.node v p l r) (by simp [Tree.subs])]
      have e : seen ++ (Tree.node v p l r).parts.map f = (seen ++ [f p]) ++ l.parts.map f ++ r.parts.map f := by simp [Tree.parts]
      rw [e] at hn h
      refine runs_tree l _ _ _ (fun S hS => hs S (by simp [Tree.subs, hS])) (hn.sublist (List.sublist_append_left _ _)) ?_
      exact runs_tree r _ _ _ (fun S hS => hs S (by simp [Tree.subs, hS])) hn h

end Rpwa.Dec
