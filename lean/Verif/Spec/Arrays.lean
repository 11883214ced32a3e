import Verif.Model.Arrays
/-! # Specification of combined arrays (C98) -/
namespace Rpwa.Arrays

/-- what an array has at an index: the default where it ends. -/
def value {T : Type} (d : T) (a : Arr T) (x : List ℕ) : T := if inRange x a.shape then a.elem x else d

/-- every dimension is the larger of both. -/
def larger (s t : List ℕ) : List ℕ := List.zipWith max s t

/-- the array `a'` has the part `p` at the index `idx`, where `p` ends and everywhere else the elements of `a`; it is as small as possible. -/
structure IsSet {T : Type} (d : T) (a : Arr T) (idx : ℕ) (p a' : Arr T) : Prop where
  shape : ∀ n ds, a.shape = n :: ds → a'.shape = max n (idx + 1) :: larger ds p.shape
  elem : ∀ i x, inRange (i :: x) a'.shape = true → a'.elem (i :: x) = if i = idx ∧ inRange x p.shape = true then p.elem x else value d a (i :: x)

/-- the array `a` has the parts in order, filled with the default where a part is smaller; it is as small as possible. -/
structure IsCombined {T : Type} (d : T) (dim : ℕ) (parts : List (Arr T)) (a : Arr T) : Prop where
  shape : a.shape = parts.length :: (parts.map (·.shape)).foldl larger (List.replicate dim 0)
  elem : ∀ b x p, parts[b]? = some p → inRange (b :: x) a.shape = true → a.elem (b :: x) = value d p x
  complete : ∀ b x p, parts[b]? = some p → inRange x p.shape = true → inRange (b :: x) a.shape = true

end Rpwa.Arrays
