import Verif.Model.Repr
import Mathlib.Order.Lattice
import Mathlib.Order.MinMax

/-! # Lemmas for C121 -/

namespace Verif.Repr

theorem foldl_max_le (l : List ℕ) (a : ℕ) : a ≤ l.foldl max a ∧ ∀ x ∈ l, x ≤ l.foldl max a := by
  induction l generalizing a with
  | nil => simp
  | cons b t ih =>
    obtain ⟨h1, h2⟩ := ih (max a b)
    simp only [List.foldl_cons, List.mem_cons, forall_eq_or_imp]
    exact ⟨(le_max_left a b).trans h1, (le_max_right a b).trans h1, h2⟩

theorem foldl_max_mem (l : List ℕ) (a : ℕ) : l.foldl max a = a ∨ l.foldl max a ∈ l := by
  induction l generalizing a with
  | nil => simp
  | cons b t ih =>
    simp only [List.foldl_cons, List.mem_cons]
    rcases ih (max a b) with h | h
    · rw [h]
      rcases max_choice a b with h' | h' <;> rw [h'] <;> simp
    · exact Or.inr (Or.inr h)

theorem le_maxLen (attrs : List (Str × Str)) (a : Str × Str) (ha : a ∈ attrs) : a.1.length ≤ maxLen attrs :=
  (foldl_max_le _ 0).2 _ (List.mem_map_of_mem (f := fun a : Str × Str => a.1.length) ha)

theorem maxLen_mem (attrs : List (Str × Str)) (hne : attrs ≠ []) : ∃ a ∈ attrs, a.1.length = maxLen attrs := by
  rcases foldl_max_mem (attrs.map fun a => a.1.length) 0 with h | h
  · obtain ⟨a, t, rfl⟩ := List.exists_cons_of_ne_nil hne
    refine ⟨a, by simp, ?_⟩
    have := le_maxLen (a :: t) a (by simp)
    unfold maxLen at this ⊢
    omega
  · obtain ⟨a, ha, e⟩ := List.mem_map.mp h
    exact ⟨a, ha, e⟩

theorem splitOn_join (ls : List Str) (hne : ls ≠ []) : (join ['\n'] ls).splitOn '\n' = ls.flatMap (·.splitOn '\n') := by
  induction ls with
  | nil => exact absurd rfl hne
  | cons a t ih =>
    cases t with
    | nil => simp [join]
    | cons b t =>
      rw [join, List.append_assoc, List.singleton_append, List.splitOn_append_cons_self, ih (by simp)]
      simp only [List.flatMap_cons]

theorem flatMap_congr' {α β : Type*} (l : List α) (f g : α → List β) (h : ∀ a ∈ l, f a = g a) : l.flatMap f = l.flatMap g := by
  induction l with
  | nil => rfl
  | cons a t ih =>
    rw [List.flatMap_cons, List.flatMap_cons, h a (by simp), ih fun b hb => h b (by simp [hb])]

theorem flatMap_single {α β : Type*} (l : List α) (f : α → List β) (g : α → β) (h : ∀ a ∈ l, f a = [g a]) :
    l.flatMap f = l.map g := by
  induction l with
  | nil => rfl
  | cons a t ih =>
    rw [List.flatMap_cons, h a (by simp), ih fun b hb => h b (by simp [hb])]; rfl

theorem item_single (n : ℕ) (a : Str × Str) (h : '\n' ∉ a.2) :
    item n a = a.1 ++ [':'] ++ List.replicate (n - a.1.length) ' ' ++ a.2 := by
  unfold item
  rw [List.splitOn_eq_singleton h]
  rfl

theorem join_indent (a : Str) (ls : List Str) (ha : '\n' ∉ a) (hls : ∀ l ∈ ls, '\n' ∉ l) :
    (join ['\n', ' ', ' '] (a :: ls)).splitOn '\n' = a :: ls.map fun row => [' ', ' '] ++ row := by
  induction ls generalizing a with
  | nil => simpa [join] using List.splitOn_eq_singleton ha
  | cons b t ih =>
    rw [join, List.append_assoc, List.cons_append, List.splitOn_append_cons_self_of_not_mem ha]
    have e : [' ', ' '] ++ join ['\n', ' ', ' '] (b :: t) = join ['\n', ' ', ' '] (([' ', ' '] ++ b) :: t) := by
      cases t <;> simp [join]
    rw [e, ih _ (by simp [hls b (by simp)]) fun l hl => hls l (by simp [hl])]
    rfl

theorem not_mem_splitOn (l : Str) : ∀ r ∈ l.splitOn '\n', '\n' ∉ r := by
  induction l with
  | nil => simp
  | cons c t ih =>
    rw [List.splitOn_cons_eq_if_modifyHead]
    split_ifs with h
    · simpa using ih
    · have hc : '\n' ≠ c := fun e => h (by simp [← e])
      generalize t.splitOn '\n' = L at ih
      cases L with
      | nil => simp
      | cons a s =>
        simp only [List.modifyHead_cons, List.mem_cons, forall_eq_or_imp] at ih ⊢
        exact ⟨by rw [not_or]; exact ⟨hc, ih.1⟩, ih.2⟩

theorem splitOn_length (l : Str) (h : '\n' ∈ l) : (l.splitOn '\n').length ≠ 1 := by
  intro e
  obtain ⟨x, hx⟩ := List.length_eq_one_iff.mp e
  have h1 := List.intercalate_splitOn (xs := l) '\n'
  rw [hx] at h1
  simp only [List.intercalate_singleton] at h1
  have := not_mem_splitOn l x (by rw [hx]; simp)
  rw [h1] at this
  exact this h

theorem item_multi (n : ℕ) (a : Str × Str) (hn : '\n' ∉ a.1) (h : '\n' ∈ a.2) :
    (item n a).splitOn '\n' = (a.1 ++ [':']) :: (a.2.splitOn '\n').map fun row => [' ', ' '] ++ row := by
  unfold item
  dsimp only
  rw [if_neg (splitOn_length _ h)]
  exact join_indent _ _ (by simp [hn]) (not_mem_splitOn _)

theorem lines_eq (attrs : List (Str × Str)) (n : ℕ) (hne : attrs ≠ []) (hname : ∀ a ∈ attrs, '\n' ∉ a.1)
    (hval : ∀ a ∈ attrs, '\n' ∉ a.2) :
    (customRepr attrs n).splitOn '\n' =
      attrs.map fun a => a.1 ++ [':'] ++ List.replicate (n + maxLen attrs - a.1.length) ' ' ++ a.2 := by
  unfold customRepr
  rw [if_neg hne, splitOn_join _ (by simpa using hne), List.flatMap_map, flatMap_single]
  intro a ha
  rw [item_single _ _ (hval a ha)]
  apply List.splitOn_eq_singleton
  simp only [List.mem_append, List.mem_singleton, List.mem_replicate, not_or, not_and]
  exact ⟨⟨⟨hname a ha, by decide⟩, fun _ => by decide⟩, hval a ha⟩

theorem lines_inj (l l' : List (Str × Str)) (w n : ℕ) (hn : l.map Prod.fst = l'.map Prod.fst)
    (h : (l.map fun a => a.1 ++ [':'] ++ List.replicate (n + w - a.1.length) ' ' ++ a.2) =
      l'.map fun a => a.1 ++ [':'] ++ List.replicate (n + w - a.1.length) ' ' ++ a.2) : l = l' := by
  induction l generalizing l' with
  | nil => cases l' with
    | nil => rfl
    | cons a t => simp at hn
  | cons a t ih => cases l' with
    | nil => simp at hn
    | cons b s =>
      simp only [List.map_cons, List.cons.injEq] at hn h
      obtain ⟨a1, a2⟩ := a
      obtain ⟨b1, b2⟩ := b
      dsimp only at hn h
      obtain ⟨rfl, hn2⟩ := hn
      have : a2 = b2 := List.append_cancel_left h.1
      rw [this, ih s hn2 h.2]

theorem join_not_mem (sep : Str) (ls : List Str) (hs : '\n' ∉ sep) (h : ∀ l ∈ ls, '\n' ∉ l) : '\n' ∉ join sep ls := by
  induction ls with
  | nil => simp [join]
  | cons a t ih =>
    cases t with
    | nil => simpa [join] using h
    | cons b t =>
      rw [join]
      simp only [List.mem_append, not_or]
      exact ⟨⟨h a (by simp), hs⟩, ih fun l hl => h l (by simp [hl])⟩

/-- Lines of the rows from number `i ≥ 1` on. -/
def rowLines (nrows n : ℕ) : ℕ → List (List Str) → List Str
  | _, [] => []
  | i, r :: rs => (List.replicate (n + 1) ' ' ++ ['['] ++ join [' '] r ++ (if i + 1 = nrows then [']', ']'] else [']'])) ::
      rowLines nrows n (i + 1) rs

theorem rowLines_length (nrows n i : ℕ) (rs : List (List Str)) : (rowLines nrows n i rs).length = rs.length := by
  induction rs generalizing i with
  | nil => rfl
  | cons r t ih => simp [rowLines, ih]

theorem rowLines_get (nrows n i : ℕ) (rs : List (List Str)) (j : ℕ) (hj : j < rs.length) :
    (rowLines nrows n i rs)[j]? = some (List.replicate (n + 1) ' ' ++ ['['] ++ join [' '] rs[j] ++
      (if i + j + 1 = nrows then [']', ']'] else [']'])) := by
  induction rs generalizing i j with
  | nil => simp at hj
  | cons r t ih =>
    cases j with
    | zero => simp [rowLines]
    | succ j =>
      rw [rowLines, List.getElem?_cons_succ, ih (i + 1) j (by simpa using hj), List.getElem_cons_succ,
        show i + 1 + j + 1 = i + (j + 1) + 1 by omega]

theorem pprintRows_lines (nrows n i : ℕ) (rs : List (List Str)) (hi : i ≠ 0) (hj : ∀ r ∈ rs, '\n' ∉ join [' '] r) :
    (pprintRows nrows n i rs).splitOn '\n' = rowLines nrows n i rs ++ [[]] := by
  induction rs generalizing i with
  | nil => simp [pprintRows, rowLines]
  | cons r t ih =>
    have h1 : pprintRows nrows n i (r :: t) = (List.replicate (n + 1) ' ' ++ ['['] ++ join [' '] r ++
        (if i + 1 = nrows then [']', ']'] else [']'])) ++ '\n' :: pprintRows nrows n (i + 1) t := by
      rw [pprintRows, if_neg hi, List.replicate_succ']
      split_ifs <;> simp
    rw [h1, List.splitOn_append_cons_self_of_not_mem, ih (i + 1) (by omega) fun r' h => hj r' (by simp [h])]
    · rfl
    · simp only [List.mem_append, List.mem_replicate, not_or]
      refine ⟨⟨⟨fun h => absurd h.2 (by decide), by decide⟩, hj r (by simp)⟩, ?_⟩
      split_ifs <;> decide

end Verif.Repr
