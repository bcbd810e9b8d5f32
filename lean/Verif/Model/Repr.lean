import Mathlib.Data.List.Basic

/-!
# Text forms (`/repo/src/polykin/utils/tools.py` lines 461-527)

Strings are lists of characters. The text of an attribute (`str(getattr(obj, name))`) and of a matrix element
(`format_specifier.format(element)`) are inputs.
-/

namespace Verif.Repr

/-- Python strings. -/
abbrev Str := List Char

/-- `sep.join(items)`. -/
def join (sep : Str) : List Str → Str
  | [] => []
  | [a] => a
  | a :: b :: l => a ++ sep ++ join sep (b :: l)

/-- Width of the longest name, `max([len(attr) for attr in attr_names])` (line 486). -/
def maxLen (attrs : List (Str × Str)) : ℕ := (attrs.map fun a => a.1.length).foldl max 0

/-- One item of `custom_repr` (lines 488-493); `nspaces` already includes the longest name. -/
def item (nspaces : ℕ) (a : Str × Str) : Str :=
  let rows := a.2.splitOn '\n'
  if rows.length = 1 then a.1 ++ [':'] ++ List.replicate (nspaces - a.1.length) ' ' ++ a.2
  else join ['\n', ' ', ' '] ((a.1 ++ [':']) :: rows)

/-- `custom_repr` (lines 461-496). The attributes are pairs of name and text. -/
def customRepr (attrs : List (Str × Str)) (nspaces : ℕ) : Str :=
  if attrs = [] then []
  else join ['\n'] (attrs.map (item (nspaces + maxLen attrs)))

/-- The lines of the loop of `pprint_matrix` (lines 522-526) from row `i` on. -/
def pprintRows (nrows nspaces : ℕ) : ℕ → List (List Str) → Str
  | _, [] => []
  | i, row :: rows =>
    ((if i = 0 then ['[', '['] else List.replicate nspaces ' ' ++ [' ', '[']) ++ join [' '] row ++
      (if i + 1 = nrows then [']', ']', '\n'] else [']', '\n'])) ++ pprintRows nrows nspaces (i + 1) rows

/-- `pprint_matrix` (lines 499-527) of the formatted elements. -/
def pprintMatrix (matrix : List (List Str)) (nspaces : ℕ) : Str := pprintRows matrix.length nspaces 0 matrix

end Verif.Repr
