import Verif.Lemmas.Repr

/-!
# C121: text forms

The lines of a text are the pieces between newlines (`List.splitOn '\n'`).
-/

namespace Verif.Repr

/-- **C121.** `custom_repr` with attribute texts of one line each gives one line per attribute, in order; every line starts with the
name and a colon, and the value starts in the same column `width + nspaces + 1` of every line, where `width` is the length of the
longest name: nothing is cut off, and between colon and value there are only spaces, at least `nspaces`. -/
theorem C121_aligned (attrs : List (Str × Str)) (n : ℕ) (hne : attrs ≠ []) (hname : ∀ a ∈ attrs, '\n' ∉ a.1)
    (hval : ∀ a ∈ attrs, '\n' ∉ a.2) :
    ∃ width, (∀ a ∈ attrs, a.1.length ≤ width) ∧ (∃ a ∈ attrs, a.1.length = width) ∧
      (customRepr attrs n).splitOn '\n' =
        attrs.map fun a => a.1 ++ [':'] ++ List.replicate (width - a.1.length + n) ' ' ++ a.2 := by
  refine ⟨maxLen attrs, fun a ha => le_maxLen attrs a ha, maxLen_mem attrs hne, ?_⟩
  unfold customRepr
  rw [if_neg hne, splitOn_join _ (by simpa using hne), List.flatMap_map, flatMap_single]
  intro a ha
  have hle := le_maxLen attrs a ha
  rw [item_single _ _ (hval a ha), show n + maxLen attrs - a.1.length = maxLen attrs - a.1.length + n by omega]
  apply List.splitOn_eq_singleton
  simp only [List.mem_append, List.mem_singleton, List.mem_replicate, not_or, not_and]
  exact ⟨⟨⟨hname a ha, by decide⟩, fun _ => by decide⟩, hval a ha⟩

/-- **C121.** Hence the values can be read back: the text determines the attribute texts. -/
theorem C121_read_back (attrs attrs' : List (Str × Str)) (n : ℕ) (hne : attrs ≠ []) (hn : attrs.map Prod.fst = attrs'.map Prod.fst)
    (hname : ∀ a ∈ attrs, '\n' ∉ a.1) (hval : ∀ a ∈ attrs, '\n' ∉ a.2) (hval' : ∀ a ∈ attrs', '\n' ∉ a.2)
    (h : customRepr attrs n = customRepr attrs' n) : attrs = attrs' := by
  have hne' : attrs' ≠ [] := by
    intro h0; rw [h0] at hn; exact hne (List.map_eq_nil_iff.mp hn)
  have hname' : ∀ a ∈ attrs', '\n' ∉ a.1 := by
    intro a ha
    have : a.1 ∈ attrs.map Prod.fst := by rw [hn]; exact List.mem_map_of_mem ha
    obtain ⟨b, hb, e⟩ := List.mem_map.mp this
    rw [← e]; exact hname b hb
  have hw : maxLen attrs = maxLen attrs' := by
    have : ∀ l : List (Str × Str), maxLen l = ((l.map Prod.fst).map List.length).foldl max 0 := by
      intro l; rw [List.map_map]; rfl
    rw [this, this, hn]
  have e1 := lines_eq attrs n hne hname hval
  have e2 := lines_eq attrs' n hne' hname' hval'
  rw [h, e2, hw] at e1
  exact (lines_inj attrs' attrs (maxLen attrs') n hn.symm e1).symm

/-- **C121.** With attribute texts of several lines: the name and a colon stand on a line of their own, followed by the lines of the
text, each indented by two spaces; single-line attributes are as before. -/
theorem C121_lines (attrs : List (Str × Str)) (n : ℕ) (hne : attrs ≠ []) (hname : ∀ a ∈ attrs, '\n' ∉ a.1) :
    ∃ width, (∀ a ∈ attrs, a.1.length ≤ width) ∧ (∃ a ∈ attrs, a.1.length = width) ∧
      (customRepr attrs n).splitOn '\n' = attrs.flatMap fun a =>
        if '\n' ∈ a.2 then (a.1 ++ [':']) :: (a.2.splitOn '\n').map fun row => [' ', ' '] ++ row
        else [a.1 ++ [':'] ++ List.replicate (width - a.1.length + n) ' ' ++ a.2] := by
  refine ⟨maxLen attrs, fun a ha => le_maxLen attrs a ha, maxLen_mem attrs hne, ?_⟩
  unfold customRepr
  rw [if_neg hne, splitOn_join _ (by simpa using hne), List.flatMap_map]
  apply flatMap_congr'
  intro a ha
  have hle := le_maxLen attrs a ha
  split_ifs with hv
  · exact item_multi _ a (hname a ha) hv
  · rw [item_single _ _ hv, show n + maxLen attrs - a.1.length = maxLen attrs - a.1.length + n by omega]
    apply List.splitOn_eq_singleton
    simp only [List.mem_append, List.mem_singleton, List.mem_replicate, not_or, not_and]
    exact ⟨⟨⟨hname a ha, by decide⟩, fun _ => by decide⟩, hv⟩

example : customRepr [("k1".toList, "2.0".toList), ("name".toList, "A".toList)] 3 = "k1:     2.0\nname:   A".toList := by
  decide +kernel

example : customRepr [("k".toList, "a\nb".toList)] 3 = "k:\n  a\n  b".toList := by decide +kernel

/-- **C121.** `pprint_matrix` of a matrix with `n ≥ 1` rows gives `n` lines, each ended by a newline. Row `i` is the elements
separated by blanks between brackets; from the second row on it is preceded by `nspaces + 1` blanks, so that after a label of
`nspaces` characters the elements of all rows start in the same column. -/
theorem C121_matrix (rows : List (List Str)) (n : ℕ) (hne : rows ≠ []) (hel : ∀ r ∈ rows, ∀ e ∈ r, '\n' ∉ e) (label : Str)
    (hl : label.length = n) (hl' : '\n' ∉ label) :
    ∃ ls, (label ++ pprintMatrix rows n).splitOn '\n' = ls ++ [[]] ∧ ls.length = rows.length ∧
      ∀ i (hi : i < rows.length), ∃ l, ls[i]? = some l ∧
        l.drop (n + 2) = join [' '] (rows[i]) ++ (if i + 1 = rows.length then [']', ']'] else [']']) ∧
        l.take (n + 2) = if i = 0 then label ++ ['[', '['] else List.replicate (n + 1) ' ' ++ ['['] := by
  cases rows with
  | nil => exact absurd rfl hne
  | cons r rs =>
    have hj : ∀ r' ∈ r :: rs, '\n' ∉ join [' '] r' := fun r' hr' => join_not_mem _ _ (by simp) (hel r' hr')
    refine ⟨(label ++ ['[', '['] ++ join [' '] r ++ (if 1 = (r :: rs).length then [']', ']'] else [']'])) ::
      rowLines (r :: rs).length n 1 rs, ?_, ?_, ?_⟩
    · unfold pprintMatrix pprintRows
      have hr := hj r (by simp)
      have h1 : label ++ (((if (0 : ℕ) = 0 then ['[', '['] else List.replicate n ' ' ++ [' ', '[']) ++ join [' '] r ++
          (if 0 + 1 = (r :: rs).length then [']', ']', '\n'] else [']', '\n'])) ++ pprintRows (r :: rs).length n (0 + 1) rs) =
          (label ++ ['[', '['] ++ join [' '] r ++ (if 1 = (r :: rs).length then [']', ']'] else [']'])) ++
            '\n' :: pprintRows (r :: rs).length n 1 rs := by
        rw [if_pos rfl]
        split_ifs <;> simp
      rw [h1, List.splitOn_append_cons_self_of_not_mem, pprintRows_lines _ _ _ _ (by omega) fun r' h => hj r' (by simp [h])]
      · rfl
      · simp only [List.mem_append, not_or]
        refine ⟨⟨⟨hl', by decide⟩, hr⟩, ?_⟩
        split_ifs <;> decide
    · simp [rowLines_length]
    · intro i hi
      cases i with
      | zero =>
        refine ⟨_, rfl, ?_, ?_⟩
        · rw [List.append_assoc, List.drop_append_of_le_length (by simp; omega), List.drop_eq_nil_of_le (by simp; omega)]
          simp
        · rw [List.append_assoc, List.take_append_of_le_length (by simp; omega), List.take_of_length_le (by simp; omega)]
          simp
      | succ i =>
        have hi' : i < rs.length := by simpa using hi
        refine ⟨_, by rw [List.getElem?_cons_succ]; exact rowLines_get _ _ _ _ i hi', ?_, ?_⟩
        · rw [List.append_assoc, List.drop_append_of_le_length (by simp), List.drop_eq_nil_of_le (by simp)]
          simp only [List.nil_append, List.getElem_cons_succ, show 1 + i + 1 = i + 1 + 1 by omega]
        · rw [List.append_assoc, List.take_append_of_le_length (by simp), List.take_of_length_le (by simp)]
          simp

example : pprintMatrix [["1".toList, "2".toList], ["3".toList, "4".toList]] 2 = "[[1 2]\n   [3 4]]\n".toList := by decide +kernel

end Verif.Repr
