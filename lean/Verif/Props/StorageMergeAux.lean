import Verif.Props.StorageMerge
/-!
# Merging event files: the texts -/
namespace Rpwa.Storage

theorem appendAux_foldl (l : List String) : ∀ a : String, a ≠ "" → l.foldl appendAux a = ", ".intercalate (a :: l) := by
  induction l with
  | nil => intro a _; rfl
  | cons b l ih =>
    intro a ha
    have hne : a ++ ", " ++ b ≠ "" := by
      intro h
      have := congrArg String.length h
      simp [String.length_append] at this
    rw [List.foldl_cons]
    have e : appendAux a b = a ++ ", " ++ b := if_neg ha
    rw [e, ih _ hne]
    rfl

/-- **C38** the text of the merged file: those of the files, in their order, separated by commas; leading empty ones leave no separator. -/
theorem merge_auxString (md5 : List UInt8 → String) (bin str aux : Bool) (m : EventMeta) (ms : List EventMeta) (hg : GoodNames m.addNames)
    (hr : ∀ x ∈ m :: ms, Readable x) (r : EventMeta) (h : merge md5 bin str aux (m :: ms) = some r) :
    r.auxString = if str then ", ".intercalate (((m :: ms).map (·.auxString)).dropWhile (· == "")) else "" := by
  have key : ∀ l : List String, l.foldl appendAux "" = ", ".intercalate (l.dropWhile (· == "")) := by
    intro l
    induction l with
    | nil => rfl
    | cons a l ih =>
      by_cases ha : a = ""
      · subst ha
        rw [List.foldl_cons, List.dropWhile_cons_of_pos (by decide)]
        exact ih
      · rw [List.foldl_cons, List.dropWhile_cons_of_neg (by simpa using ha)]
        exact appendAux_foldl l a ha
  dsimp only [merge] at h
  cases hs : (m :: ms).foldlM (mergeStep bin str aux) (mergeFirst bin m) with
  | none => rw [hs] at h; simp at h
  | some s =>
    have hok := mergeLoop_some hg (m :: ms) hr [] _ s (mergeFirst_inv bin str aux m) (mergeable_nil _ _ _) hs
    obtain ⟨s', h1, hi⟩ := mergeLoop_ok (str := str) hg (m :: ms) hr [] _ (mergeFirst_inv bin str aux m) hok
    rw [hs] at h1
    obtain rfl := Option.some.inj h1
    rw [hs] at h
    simp only [Option.bind_eq_bind, Option.bind_some, Option.pure_def, Option.some.injEq] at h
    subst h
    simp only [List.nil_append] at hi
    have := hi.auxString
    rw [key] at this
    exact this

end Rpwa.Storage
