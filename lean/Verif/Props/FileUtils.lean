import Verif.Model.FileUtils
/-!
# C09: path decomposition
-/
namespace Rpwa.FileUtils

private theorem findLastOf_none (c : Char) (s : List Char) : findLastOf c s = none ↔ c ∉ s := by
  induction s with
  | nil => simp [findLastOf]
  | cons x xs ih =>
    unfold findLastOf
    cases h : findLastOf c xs with
    | some i => simp [h] at ih; simp [ih]
    | none =>
      simp [h] at ih
      by_cases hx : x = c
      · simp [hx]
      · simp [hx, ih, Ne.symm hx]

private theorem findLastOf_append (c : Char) (a b : List Char) (hb : c ∉ b) :
    findLastOf c (a ++ c :: b) = some a.length := by
  induction a with
  | nil => simp [findLastOf, (findLastOf_none c b).2 hb]
  | cons x xs ih => simp [findLastOf, ih]

private theorem split_last (c : Char) (s : List Char) (h : c ∈ s) :
    ∃ a b, s = a ++ c :: b ∧ c ∉ b := by
  induction s with
  | nil => simp at h
  | cons x xs ih =>
    by_cases hx : c ∈ xs
    · obtain ⟨a, b, h1, h2⟩ := ih hx
      exact ⟨x :: a, b, by simp [h1], h2⟩
    · rcases List.mem_cons.1 h with h' | h'
      · exact ⟨[], xs, by simp [h'], hx⟩
      · exact absurd h' hx

private theorem cases_slash (p : List Char) :
    ('/' ∉ p ∧ directoryFromPath p = [] ∧ fileNameFromPath p = p) ∨
    (∃ a b, p = a ++ '/' :: b ∧ '/' ∉ b ∧ directoryFromPath p = a ++ ['/'] ∧ fileNameFromPath p = b) := by
  by_cases h : '/' ∈ p
  · right
    obtain ⟨a, b, rfl, hb⟩ := split_last _ _ h
    refine ⟨a, b, rfl, hb, ?_, ?_⟩
    · simp only [directoryFromPath, afterLast, findLastOf_append _ _ _ hb]
      have : a ++ '/' :: b = (a ++ ['/']) ++ b := by simp
      rw [this, List.take_append_of_le_length (by simp)]
      exact List.take_of_length_le (by simp)
    · simp only [fileNameFromPath, afterLast, findLastOf_append _ _ _ hb]
      have : a ++ '/' :: b = (a ++ ['/']) ++ b := by simp
      rw [this, List.drop_append_of_le_length (by simp), List.drop_of_length_le (by simp)]
      rfl
  · left
    have := (findLastOf_none '/' p).2 h
    exact ⟨h, by simp [directoryFromPath, afterLast, this], by simp [fileNameFromPath, afterLast, this]⟩

private theorem dir_name (d f : List Char) (hf : '/' ∉ f) (hd : d = [] ∨ ∃ a, d = a ++ ['/']) :
    directoryFromPath (d ++ f) = d ∧ fileNameFromPath (d ++ f) = f := by
  rcases hd with rfl | ⟨a, rfl⟩
  · have := (findLastOf_none '/' f).2 hf
    simp [directoryFromPath, fileNameFromPath, afterLast, this]
  · have e : a ++ ['/'] ++ f = a ++ '/' :: f := by simp
    have hl := findLastOf_append '/' a f hf
    rw [e]
    simp only [directoryFromPath, fileNameFromPath, afterLast, hl]
    rw [← e, List.take_append_of_le_length (by simp), List.drop_append_of_le_length (by simp),
      List.take_of_length_le (by simp), List.drop_of_length_le (by simp)]
    exact ⟨rfl, rfl⟩

/-- C09: directory and file name concatenate to the path; the file name has no separator; the directory is
empty or ends with the separator. -/
theorem directory_fileName (p : List Char) :
    directoryFromPath p ++ fileNameFromPath p = p ∧ '/' ∉ fileNameFromPath p ∧
    (directoryFromPath p = [] ∨ ∃ a, directoryFromPath p = a ++ ['/']) := by
  rcases cases_slash p with ⟨h, h1, h2⟩ | ⟨a, b, rfl, hb, h1, h2⟩
  · rw [h1, h2]; exact ⟨rfl, h, Or.inl rfl⟩
  · rw [h1, h2]; exact ⟨by simp, hb, Or.inr ⟨a, rfl⟩⟩

example : directoryFromPath "/a/b.c/d.e".toList = "/a/b.c/".toList ∧
    fileNameFromPath "/a/b.c/d.e".toList = "d.e".toList := by decide

/-- C09: a file name with a dot is stem, dot, extension, and the extension has no dot; without a dot the
stem is the whole file name. -/
theorem stem_extension (p : List Char) :
    ('.' ∈ fileNameFromPath p → fileNameNoExtFromPath p ++ '.' :: extensionFromPath p = fileNameFromPath p ∧
      '.' ∉ extensionFromPath p) ∧
    ('.' ∉ fileNameFromPath p → fileNameNoExtFromPath p = fileNameFromPath p) := by
  refine ⟨fun h => ?_, fun h => ?_⟩
  · obtain ⟨a, b, e, hb⟩ := split_last _ _ h
    have hl := findLastOf_append '.' a b hb
    rw [← e] at hl
    have h1 : fileNameNoExtFromPath p = a := by
      simp only [fileNameNoExtFromPath, hl]; rw [e]; simp
    have h2 : extensionFromPath p = b := by
      simp only [extensionFromPath, afterLast, hl]
      rw [e]
      have : a ++ '.' :: b = (a ++ ['.']) ++ b := by simp
      rw [this, List.drop_append_of_le_length (by simp), List.drop_of_length_le (by simp)]
      rfl
    rw [h1, h2]; exact ⟨e.symm, hb⟩
  · simp [fileNameNoExtFromPath, (findLastOf_none '.' _).2 h]

example : '.' ∈ fileNameFromPath "x/a.b.c".toList ∧ fileNameNoExtFromPath "x/a.b.c".toList = "a.b".toList := by
  decide

/-- C09 quirk: the "extension" of a file name without a dot is the whole file name. -/
theorem extension_without_dot (p : List Char) (h : '.' ∉ fileNameFromPath p) :
    extensionFromPath p = fileNameFromPath p := by
  simp [extensionFromPath, afterLast, (findLastOf_none '.' _).2 h]

example : '.' ∉ fileNameFromPath "a.b/c".toList := by decide

private theorem stem_no_slash (p : List Char) : '/' ∉ fileNameNoExtFromPath p := by
  have h := (directory_fileName p).2.1
  by_cases hd : '.' ∈ fileNameFromPath p
  · have e := ((stem_extension p).1 hd).1
    intro hc; apply h; rw [← e]; simp [hc]
  · rw [(stem_extension p).2 hd]; exact h

private theorem noExt_append (d f e : List Char) (hd : d = [] ∨ ∃ a, d = a ++ ['/']) (hf : '/' ∉ f)
    (he : '/' ∉ e) (hdot : '.' ∉ e) :
    directoryFromPath (d ++ f ++ '.' :: e) = d ∧ fileNameNoExtFromPath (d ++ f ++ '.' :: e) = f ∧
    extensionFromPath (d ++ f ++ '.' :: e) = e := by
  have hfe : '/' ∉ (f ++ '.' :: e) := by simp [hf, he]
  have h1 := dir_name d (f ++ '.' :: e) hfe hd
  rw [← List.append_assoc] at h1
  have hl := findLastOf_append '.' f e hdot
  refine ⟨h1.1, ?_, ?_⟩
  · simp only [fileNameNoExtFromPath, h1.2, hl]; simp
  · simp only [extensionFromPath, h1.2, afterLast, hl]
    have : f ++ '.' :: e = (f ++ ['.']) ++ e := by simp
    rw [this, List.drop_append_of_le_length (by simp)]; simp

/-- C09: changing the extension (to a plain extension, given with or without leading dot) keeps directory and
stem, sets the extension, and doing it twice changes nothing more. -/
theorem changeFileExtension_spec (p e : List Char) (he : e ≠ []) (hs : '/' ∉ e) (hd : '.' ∉ e)
    (ext : List Char) (hext : ext = e ∨ ext = '.' :: e) :
    let q := changeFileExtension p ext
    directoryFromPath q = directoryFromPath p ∧ fileNameNoExtFromPath q = fileNameNoExtFromPath p ∧
    extensionFromPath q = e ∧ changeFileExtension q ext = q := by
  have hq : ∀ p, changeFileExtension p ext = directoryFromPath p ++ fileNameNoExtFromPath p ++ '.' :: e := by
    intro p
    rcases hext with rfl | rfl
    · have : ext.head? ≠ some '.' := by
        cases ext with
        | nil => simp
        | cons x xs => simp at hd; simp; exact fun h => hd.1 h.symm
      simp [changeFileExtension, he, this]
    · simp [changeFileExtension]
  have h := noExt_append (directoryFromPath p) (fileNameNoExtFromPath p) e (directory_fileName p).2.2
    (stem_no_slash p) hs hd
  intro q
  have hqe : q = directoryFromPath p ++ fileNameNoExtFromPath p ++ '.' :: e := hq p
  rw [hq q, hqe, h.1, h.2.1]
  exact ⟨rfl, rfl, h.2.2, rfl⟩

example : changeFileExtension "dir.x/file.tar.gz".toList ".root".toList = "dir.x/file.tar.root".toList := by
  decide

/-- C09: an empty new extension strips the extension. -/
theorem changeFileExtension_empty (p : List Char) :
    changeFileExtension p [] = directoryFromPath p ++ fileNameNoExtFromPath p := by
  simp [changeFileExtension]

/-- C09 boundary: with a compound extension the change is not idempotent. -/
theorem changeFileExtension_not_idempotent :
    changeFileExtension (changeFileExtension "a.evt".toList "tar.gz".toList) "tar.gz".toList ≠
      changeFileExtension "a.evt".toList "tar.gz".toList := by decide

end Rpwa.FileUtils
