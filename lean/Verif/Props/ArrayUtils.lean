import Mathlib.Algebra.BigOperators.Group.List.Basic
import Mathlib.Algebra.Order.Ring.Nat
import Mathlib.Algebra.BigOperators.Ring.List
import Mathlib.Tactic.Ring
import Mathlib.Tactic.Linarith
import Verif.Model.ArrayUtils
/-!
# C08: offsets of pseudo-n-dimensional arrays

Specification: `InRange` (every index below its extent) and the product of the extents.
-/
namespace Rpwa.ArrayUtils

/-- index tuple of an array with these extents. -/
def InRange (is ds : List Nat) : Prop := List.Forall₂ (· < ·) is ds

private theorem nmbElements_prod (d : Nat) (ds : List Nat) : ds.foldl (· * ·) d = d * ds.prod := by
  induction ds generalizing d with
  | nil => simp
  | cons e es ih => rw [List.foldl_cons, ih, List.prod_cons, Nat.mul_assoc]

private theorem indicesLoop_bound (is ds : List Nat) (h : InRange is ds) (o : Nat) :
    ∃ r, indicesLoop o is ds = .ok (o * ds.prod + r) ∧ r < ds.prod ∧
      ∀ q, offsetLoop (q * ds.prod + r) ds = .ok (q, is) := by
  induction h generalizing o with
  | nil => exact ⟨0, by simp [indicesLoop], by simp, fun q => by simp [offsetLoop]⟩
  | @cons i d is ds hid _ ih =>
    obtain ⟨r, h1, h2, h3⟩ := ih (o * d + i)
    refine ⟨i * ds.prod + r, ?_, ?_, fun q => ?_⟩
    · rw [indicesLoop, h1, List.prod_cons]; congr 1; ring
    · rw [List.prod_cons]; nlinarith
    · rw [offsetLoop, List.prod_cons]
      have e : q * (d * ds.prod) + (i * ds.prod + r) = (q * d + i) * ds.prod + r := by ring
      rw [e, h3 (q * d + i)]
      have hd : 0 < d := by omega
      simp only [Nat.pos_iff_ne_zero.1 hd, if_false]
      have e1 : (q * d + i) / d = q := by
        rw [Nat.add_comm, Nat.add_mul_div_right _ _ hd, Nat.div_eq_of_lt hid, Nat.zero_add]
      have e2 : (q * d + i) % d = i := by
        rw [Nat.add_comm, Nat.add_mul_mod_self_right, Nat.mod_eq_of_lt hid]
      rw [e1, e2]

private theorem offsetLoop_spec (ds : List Nat) (h : ∀ d ∈ ds, 0 < d) (off : Nat) :
    ∃ is, offsetLoop off ds = .ok (off / ds.prod, is) ∧ InRange is ds ∧
      ∀ o, indicesLoop o is ds = .ok (o * ds.prod + off % ds.prod) := by
  induction ds with
  | nil => exact ⟨[], by simp [offsetLoop], List.Forall₂.nil, fun o => by simp [indicesLoop, Nat.mod_one]⟩
  | cons d ds ih =>
    obtain ⟨is, h1, h2, h3⟩ := ih (fun e he => h e (List.mem_cons_of_mem _ he))
    have hd : 0 < d := h d (List.mem_cons_self ..)
    refine ⟨(off / ds.prod % d) :: is, ?_, List.Forall₂.cons (Nat.mod_lt _ hd) h2, fun o => ?_⟩
    · rw [offsetLoop, h1]
      simp only [Nat.pos_iff_ne_zero.1 hd, if_false, List.prod_cons]
      rw [Nat.div_div_eq_div_mul, Nat.mul_comm]
    · rw [indicesLoop, h3, List.prod_cons]
      congr 1
      rw [Nat.mul_comm d ds.prod, Nat.mod_mul]
      ring

/-- C08: in-range indices have an offset below the number of elements, and converting back returns the
indices. -/
theorem offset_of_indices (is ds : List Nat) (hne : ds ≠ []) (h : InRange is ds) :
    ∃ off n, indicesToOffset is ds = .ok off ∧ nmbElements ds = .ok n ∧ n = ds.prod ∧ off < n ∧
      offsetToIndices off ds = .ok is := by
  cases h with
  | nil => exact absurd rfl hne
  | @cons i d is ds hid h =>
    obtain ⟨r, h1, h2, h3⟩ := indicesLoop_bound is ds h i
    refine ⟨i * ds.prod + r, d * ds.prod, h1, ?_, rfl, by nlinarith, ?_⟩
    · simp [nmbElements, nmbElements_prod]
    · simp [offsetToIndices, h3 i]

example : InRange [1, 0, 3] [2, 3, 4] ∧ indicesToOffset [1, 0, 3] [2, 3, 4] = .ok 15 := by
  refine ⟨?_, by decide⟩
  repeat constructor

/-- C08: every offset below the number of elements has in-range indices, which convert back to it. -/
theorem indices_of_offset (off : Nat) (ds : List Nat) (hne : ds ≠ []) (h : off < ds.prod) :
    ∃ is, offsetToIndices off ds = .ok is ∧ InRange is ds ∧ indicesToOffset is ds = .ok off := by
  cases ds with
  | nil => exact absurd rfl hne
  | cons d ds =>
    have hpos : ∀ e ∈ (d :: ds), 0 < e := by
      intro e he
      rcases Nat.eq_zero_or_pos e with h0 | h0
      · subst h0; rw [List.prod_eq_zero he] at h; omega
      · exact h0
    obtain ⟨is, h1, h2, h3⟩ := offsetLoop_spec ds (fun e he => hpos e (List.mem_cons_of_mem _ he)) off
    refine ⟨(off / ds.prod) :: is, by simp [offsetToIndices, h1], List.Forall₂.cons ?_ h2, ?_⟩
    · rw [List.prod_cons] at h
      exact Nat.div_lt_of_lt_mul (by rw [Nat.mul_comm]; exact h)
    · simp only [indicesToOffset, h3]
      congr 1
      rw [Nat.mul_comm]; exact Nat.div_add_mod _ _

example : (15 : Nat) < [2, 3, 4].prod ∧ offsetToIndices 15 [2, 3, 4] = .ok [1, 0, 3] := by decide

end Rpwa.ArrayUtils
